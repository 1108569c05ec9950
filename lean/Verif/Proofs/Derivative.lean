import Mathlib.Analysis.Calculus.FDeriv.Add
import Mathlib.Analysis.Calculus.FDeriv.Mul
import Mathlib.Analysis.Calculus.FDeriv.Pi
import Mathlib.Topology.Algebra.Module.FiniteDimension
/-!
# Derivatives of real functions

`Diff f f' x`: the real function `f` has a Fréchet derivative at `x`, and it is the map `f'`.
-/

noncomputable section
namespace Serac.Deriv
open Finset

variable {V : Type} [NormedAddCommGroup V] [NormedSpace ℝ V]

def Diff (f f' : V → ℝ) (x : V) : Prop := ∃ L : V →L[ℝ] ℝ, (∀ y, L y = f' y) ∧ HasFDerivAt f L x

theorem Diff.const (c : ℝ) (x : V) : Diff (fun _ => c) (fun _ => 0) x := ⟨0, fun _ => rfl, hasFDerivAt_const c x⟩

theorem Diff.linear (L : V →L[ℝ] ℝ) (x : V) : Diff L L x := ⟨L, fun _ => rfl, L.hasFDerivAt⟩

theorem Diff.congr {f g f' g' : V → ℝ} {x : V} (h : Diff f f' x) (hf : ∀ y, g y = f y) (hf' : ∀ y, g' y = f' y) : Diff g g' x := by
  rw [show g = f from funext hf, show g' = f' from funext hf']
  exact h

theorem Diff.congr_near {f g f' : V → ℝ} {x : V} (h : Diff f f' x) (hf : ∀ᶠ y in nhds x, g y = f y) : Diff g f' x := by
  obtain ⟨L, h1, h2⟩ := h
  exact ⟨L, h1, h2.congr_of_eventuallyEq hf⟩

theorem Diff.add {f g f' g' : V → ℝ} {x : V} (h : Diff f f' x) (h' : Diff g g' x) : Diff (fun y => f y + g y) (fun y => f' y + g' y) x := by
  obtain ⟨L, h1, h2⟩ := h
  obtain ⟨M, h3, h4⟩ := h'
  exact ⟨L + M, fun y => by rw [ContinuousLinearMap.add_apply, h1, h3], h2.add h4⟩

theorem Diff.const_add {f f' : V → ℝ} {x : V} (c : ℝ) (h : Diff f f' x) : Diff (fun y => c + f y) f' x :=
  ((Diff.const c x).add h).congr (fun _ => rfl) fun _ => (zero_add _).symm

theorem Diff.const_mul {f f' : V → ℝ} {x : V} (c : ℝ) (h : Diff f f' x) : Diff (fun y => c * f y) (fun y => c * f' y) x := by
  obtain ⟨L, h1, h2⟩ := h
  exact ⟨c • L, fun y => by rw [ContinuousLinearMap.smul_apply, h1, smul_eq_mul], h2.const_mul c⟩

theorem Diff.mul_const {f f' : V → ℝ} {x : V} (c : ℝ) (h : Diff f f' x) : Diff (fun y => f y * c) (fun y => f' y * c) x :=
  (h.const_mul c).congr (fun _ => mul_comm _ _) fun _ => mul_comm _ _

theorem Diff.mul {f g f' g' : V → ℝ} {x : V} (h : Diff f f' x) (h' : Diff g g' x) : Diff (fun y => f y * g y) (fun y => f x * g' y + f' y * g x) x := by
  obtain ⟨L, h1, h2⟩ := h
  obtain ⟨M, h3, h4⟩ := h'
  exact ⟨f x • M + g x • L, fun y => by simp only [ContinuousLinearMap.add_apply, ContinuousLinearMap.smul_apply, h1, h3, smul_eq_mul, mul_comm (g x)], h2.mul h4⟩

theorem Diff.neg {f f' : V → ℝ} {x : V} (h : Diff f f' x) : Diff (fun y => -f y) (fun y => -f' y) x :=
  (h.const_mul (-1)).congr (fun _ => (neg_one_mul _).symm) fun _ => (neg_one_mul _).symm

theorem Diff.sub {f g f' g' : V → ℝ} {x : V} (h : Diff f f' x) (h' : Diff g g' x) : Diff (fun y => f y - g y) (fun y => f' y - g' y) x :=
  (h.add h'.neg).congr (fun _ => sub_eq_add_neg _ _) fun _ => sub_eq_add_neg _ _

/-- There is only one derivative. -/
theorem Diff.unique {f f' g' : V → ℝ} {x : V} (h : Diff f f' x) (h' : Diff f g' x) : f' = g' := by
  obtain ⟨L, h1, h2⟩ := h
  obtain ⟨M, h3, h4⟩ := h'
  funext y
  rw [← h1, ← h3, h2.unique h4]

theorem Diff.sum {ι : Type} (t : Finset ι) {f f' : ι → V → ℝ} {x : V} (h : ∀ i ∈ t, Diff (f i) (f' i) x) :
    Diff (fun y => ∑ i ∈ t, f i y) (fun y => ∑ i ∈ t, f' i y) x := by
  classical
  induction t using Finset.induction_on with
  | empty => exact (Diff.const 0 x).congr (fun _ => sum_empty) fun _ => sum_empty
  | insert a t ha ih =>
    exact ((h a (mem_insert_self a t)).add (ih fun i hi => h i (mem_insert_of_mem hi))).congr (fun _ => sum_insert ha) fun _ => sum_insert ha

theorem Diff.list {ι : Type} (l : List ι) {f f' : ι → V → ℝ} {x : V} (h : ∀ i ∈ l, Diff (f i) (f' i) x) :
    Diff (fun y => (l.map fun i => f i y).sum) (fun y => (l.map fun i => f' i y).sum) x := by
  induction l with
  | nil => exact Diff.const 0 x
  | cons a l ih => exact ((h a List.mem_cons_self).add (ih fun i hi => h i (List.mem_cons_of_mem _ hi))).congr (fun _ => List.sum_cons) fun _ => List.sum_cons

theorem Diff.ite {p : Prop} [Decidable p] {f f' : V → ℝ} {x : V} (h : p → Diff f f' x) : Diff (fun y => if p then f y else 0) (fun y => if p then f' y else 0) x := by
  by_cases hp : p
  · simpa only [if_pos hp] using h hp
  · simpa only [if_neg hp] using Diff.const 0 x

theorem Diff.ite_zero {p : Prop} [Decidable p] {f f' : V → ℝ} {x : V} (h : ¬ p → Diff f f' x) :
    Diff (fun y => if p then 0 else f y) (fun y => if p then 0 else f' y) x := by
  by_cases hp : p
  · simpa only [if_pos hp] using Diff.const 0 x
  · simpa only [if_neg hp] using h hp

/-- Linear functions of finitely many numbers. -/
theorem Diff.lin [FiniteDimensional ℝ V] {f : V → ℝ} (h : ∀ (a b : ℝ) (y z : V), f (a • y + b • z) = a * f y + b * f z) (x : V) : Diff f f x := by
  let F : V →ₗ[ℝ] ℝ :=
    { toFun := f
      map_add' := fun y z => by simpa using h 1 1 y z
      map_smul' := fun a y => by simpa using h a 0 y 0 }
  exact Diff.linear (LinearMap.toContinuousLinearMap F) x

/-- Composition with a linear map. -/
theorem Diff.comp {W : Type} [NormedAddCommGroup W] [NormedSpace ℝ W] {f f' : W → ℝ} (L : V →L[ℝ] W) {x : V} (h : Diff f f' (L x)) :
    Diff (fun y => f (L y)) (fun y => f' (L y)) x := by
  obtain ⟨M, h1, h2⟩ := h
  exact ⟨M.comp L, fun y => h1 _, h2.comp x L.hasFDerivAt⟩

theorem Diff.comp_affine {W : Type} [NormedAddCommGroup W] [NormedSpace ℝ W] {f f' : W → ℝ} (L : V →L[ℝ] W) (c : W) {x : V} (h : Diff f f' (c + L x)) :
    Diff (fun y => f (c + L y)) (fun y => f' (L y)) x := by
  obtain ⟨M, h1, h2⟩ := h
  exact ⟨M.comp L, fun y => h1 _, HasFDerivAt.comp x (f := fun y => c + L y) h2 (L.hasFDerivAt.const_add c)⟩

/-- All components: the derivative of the vector function. -/
theorem Diff.pi {N : Type} [Fintype N] {f f' : V → N → ℝ} {x : V} (h : ∀ k, Diff (fun y => f y k) (fun y => f' y k) x) :
    ∃ L : V →L[ℝ] (N → ℝ), (∀ y, L y = f' y) ∧ HasFDerivAt f L x := by
  choose L h1 h2 using h
  exact ⟨ContinuousLinearMap.pi L, fun y => funext fun k => h1 k y, hasFDerivAt_pi.2 h2⟩

end Serac.Deriv
