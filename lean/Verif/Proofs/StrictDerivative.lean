import Verif.Proofs.Derivative
import Verif.Proofs.Transforms
import Mathlib.Analysis.Calculus.ContDiff.RCLike
import Mathlib.Analysis.Calculus.ContDiff.Operations
import Mathlib.Analysis.Matrix.Normed
import Mathlib.Analysis.Calculus.Deriv.Inv
import Mathlib.Analysis.SpecialFunctions.Sqrt
/-!
# Strict derivatives

`SD f f' x`: the function `f` between normed spaces has a strict derivative at `x`, and it is the map `f'`.  Matrices carry the norm of the largest entry.
-/

noncomputable section
namespace Serac.Deriv
open Finset Serac.Tensor Serac.Transform

attribute [local instance] Matrix.normedAddCommGroup Matrix.normedSpace

variable {V W U : Type} [NormedAddCommGroup V] [NormedSpace ℝ V] [NormedAddCommGroup W] [NormedSpace ℝ W] [NormedAddCommGroup U] [NormedSpace ℝ U]

def SD (f f' : V → W) (x : V) : Prop := ∃ L : V →L[ℝ] W, (∀ y, L y = f' y) ∧ HasStrictFDerivAt f L x

theorem SD.const (c : W) (x : V) : SD (fun _ => c) (fun _ => 0) x := ⟨0, fun _ => rfl, hasStrictFDerivAt_const c x⟩

theorem SD.linear (L : V →L[ℝ] W) (x : V) : SD L L x := ⟨L, fun _ => rfl, L.hasStrictFDerivAt⟩

theorem SD.congr {f g f' g' : V → W} {x : V} (h : SD f f' x) (hf : ∀ y, g y = f y) (hf' : ∀ y, g' y = f' y) : SD g g' x := by
  rw [show g = f from funext hf, show g' = f' from funext hf']
  exact h

theorem SD.congr' {f f' g' : V → W} {x : V} (h : SD f f' x) (hf' : ∀ y, g' y = f' y) : SD f g' x := h.congr (fun _ => rfl) hf'

theorem SD.congr_near {f g f' : V → W} {x : V} (h : SD f f' x) (hf : ∀ᶠ y in nhds x, g y = f y) : SD g f' x := by
  obtain ⟨L, h1, h2⟩ := h
  exact ⟨L, h1, h2.congr_of_eventuallyEq (hf.mono fun _ h => h.symm)⟩

theorem SD.diff {f f' : V → ℝ} {x : V} (h : SD f f' x) : Diff f f' x := by
  obtain ⟨L, h1, h2⟩ := h
  exact ⟨L, h1, h2.hasFDerivAt⟩

theorem SD.continuousAt {f f' : V → W} {x : V} (h : SD f f' x) : ContinuousAt f x := by
  obtain ⟨L, _, h2⟩ := h
  exact h2.hasFDerivAt.continuousAt

theorem SD.unique {f f' g' : V → W} {x : V} (h : SD f f' x) (h' : SD f g' x) : f' = g' := by
  obtain ⟨L, h1, h2⟩ := h
  obtain ⟨M, h3, h4⟩ := h'
  funext y
  rw [← h1, ← h3, h2.hasFDerivAt.unique h4.hasFDerivAt]

/-- The derivative is linear. -/
theorem SD.map_add {f f' : V → W} {x : V} (h : SD f f' x) (y z : V) : f' (y + z) = f' y + f' z := by
  obtain ⟨L, h1, _⟩ := h
  rw [← h1, ← h1, ← h1, _root_.map_add]

theorem SD.map_smul {f f' : V → W} {x : V} (h : SD f f' x) (c : ℝ) (y : V) : f' (c • y) = c • f' y := by
  obtain ⟨L, h1, _⟩ := h
  rw [← h1, ← h1, _root_.map_smul]

theorem SD.add {f g f' g' : V → W} {x : V} (h : SD f f' x) (h' : SD g g' x) : SD (fun y => f y + g y) (fun y => f' y + g' y) x := by
  obtain ⟨L, h1, h2⟩ := h
  obtain ⟨M, h3, h4⟩ := h'
  exact ⟨L + M, fun y => by rw [_root_.add_apply, h1, h3], h2.add h4⟩

theorem SD.const_add {f f' : V → W} {x : V} (c : W) (h : SD f f' x) : SD (fun y => c + f y) f' x :=
  ((SD.const c x).add h).congr' fun _ => (zero_add _).symm

theorem SD.neg {f f' : V → W} {x : V} (h : SD f f' x) : SD (fun y => -f y) (fun y => -f' y) x := by
  obtain ⟨L, h1, h2⟩ := h
  exact ⟨-L, fun y => by rw [_root_.neg_apply, h1], h2.neg⟩

theorem SD.sub {f g f' g' : V → W} {x : V} (h : SD f f' x) (h' : SD g g' x) : SD (fun y => f y - g y) (fun y => f' y - g' y) x :=
  (h.add h'.neg).congr (fun _ => sub_eq_add_neg _ _) fun _ => sub_eq_add_neg _ _

theorem SD.mul {f g f' g' : V → ℝ} {x : V} (h : SD f f' x) (h' : SD g g' x) : SD (fun y => f y * g y) (fun y => f' y * g x + f x * g' y) x := by
  obtain ⟨L, h1, h2⟩ := h
  obtain ⟨M, h3, h4⟩ := h'
  exact ⟨f x • M + g x • L, fun y => by
    simp only [_root_.add_apply, _root_.smul_apply, h1, h3, smul_eq_mul, mul_comm (g x), add_comm], h2.mul h4⟩

theorem SD.mul_const {f f' : V → ℝ} {x : V} (c : ℝ) (h : SD f f' x) : SD (fun y => f y * c) (fun y => f' y * c) x :=
  (h.mul (SD.const c x)).congr' fun _ => by ring

theorem SD.const_mul {f f' : V → ℝ} {x : V} (c : ℝ) (h : SD f f' x) : SD (fun y => c * f y) (fun y => c * f' y) x :=
  (h.mul_const c).congr (fun _ => mul_comm _ _) fun _ => mul_comm _ _

theorem SD.div_const {f f' : V → ℝ} {x : V} (c : ℝ) (h : SD f f' x) : SD (fun y => f y / c) (fun y => f' y / c) x :=
  (h.mul_const c⁻¹).congr (fun _ => div_eq_mul_inv _ _) fun _ => div_eq_mul_inv _ _

theorem SD.chain {g g' : V → W} {f f' : W → U} {x : V} (hf : SD f f' (g x)) (hg : SD g g' x) : SD (fun y => f (g y)) (fun v => f' (g' v)) x := by
  obtain ⟨L, h1, h2⟩ := hg
  obtain ⟨M, h3, h4⟩ := hf
  exact ⟨M.comp L, fun y => by rw [ContinuousLinearMap.comp_apply, h1, h3], h4.comp x h2⟩

theorem SD.sqrt {f f' : V → ℝ} {x : V} (h : SD f f' x) (h0 : f x ≠ 0) : SD (fun y => Real.sqrt (f y)) (fun v => f' v / (2 * Real.sqrt (f x))) x := by
  obtain ⟨L, h1, h2⟩ := h
  refine ⟨_, fun y => ?_, h2.sqrt h0⟩
  rw [_root_.smul_apply, h1, smul_eq_mul]
  ring

theorem SD.inv {f f' : V → ℝ} {x : V} (h : SD f f' x) (h0 : f x ≠ 0) : SD (fun y => (f y)⁻¹) (fun v => -f' v / f x ^ 2) x := by
  obtain ⟨L, h1, h2⟩ := h
  refine ⟨_, fun y => ?_, (hasStrictDerivAt_inv h0).comp_hasStrictFDerivAt x h2⟩
  rw [_root_.smul_apply, h1, smul_eq_mul]
  ring

theorem SD.sum {ι : Type} (t : Finset ι) {f f' : ι → V → W} {x : V} (h : ∀ i ∈ t, SD (f i) (f' i) x) : SD (fun y => ∑ i ∈ t, f i y) (fun y => ∑ i ∈ t, f' i y) x := by
  classical
  induction t using Finset.induction_on with
  | empty => exact (SD.const 0 x).congr (fun _ => sum_empty) fun _ => sum_empty
  | insert a t ha ih =>
    exact ((h a (mem_insert_self a t)).add (ih fun i hi => h i (mem_insert_of_mem hi))).congr (fun _ => sum_insert ha) fun _ => sum_insert ha

theorem SD.list {ι : Type} (l : List ι) {f f' : ι → V → W} {x : V} (h : ∀ i ∈ l, SD (f i) (f' i) x) :
    SD (fun y => (l.map fun i => f i y).sum) (fun y => (l.map fun i => f' i y).sum) x := by
  induction l with
  | nil => exact SD.const 0 x
  | cons a l ih => exact ((h a List.mem_cons_self).add (ih fun i hi => h i (List.mem_cons_of_mem _ hi))).congr (fun _ => List.sum_cons) fun _ => List.sum_cons

theorem SD.ite {p : Prop} [Decidable p] {f f' : V → W} {x : V} (h : p → SD f f' x) : SD (fun y => if p then f y else 0) (fun y => if p then f' y else 0) x := by
  by_cases hp : p
  · simpa only [if_pos hp] using h hp
  · simpa only [if_neg hp] using SD.const 0 x

theorem SD.ite_zero {p : Prop} [Decidable p] {f f' : V → W} {x : V} (h : ¬ p → SD f f' x) : SD (fun y => if p then 0 else f y) (fun y => if p then 0 else f' y) x := by
  by_cases hp : p
  · simpa only [if_pos hp] using SD.const 0 x
  · simpa only [if_neg hp] using h hp

theorem SD.prod {f f' : V → W} {g g' : V → U} {x : V} (h : SD f f' x) (h' : SD g g' x) : SD (fun y => (f y, g y)) (fun y => (f' y, g' y)) x := by
  obtain ⟨L, h1, h2⟩ := h
  obtain ⟨M, h3, h4⟩ := h'
  exact ⟨L.prod M, fun y => by rw [ContinuousLinearMap.prod_apply, h1, h3], h2.prodMk h4⟩

theorem SD.fst {f f' : V → W × U} {x : V} (h : SD f f' x) : SD (fun y => (f y).1) (fun y => (f' y).1) x :=
  SD.chain (SD.linear (ContinuousLinearMap.fst ℝ W U) (f x)) h
theorem SD.snd {f f' : V → W × U} {x : V} (h : SD f f' x) : SD (fun y => (f y).2) (fun y => (f' y).2) x :=
  SD.chain (SD.linear (ContinuousLinearMap.snd ℝ W U) (f x)) h

theorem SD.pi {N : Type} [Fintype N] {f f' : V → N → W} {x : V} (h : ∀ k, SD (fun y => f y k) (fun y => f' y k) x) : SD f f' x := by
  choose L h1 h2 using h
  exact ⟨ContinuousLinearMap.pi L, fun y => funext fun k => h1 k y, hasStrictFDerivAt_pi.2 h2⟩

theorem SD.at {N : Type} [Fintype N] {f f' : V → N → W} {x : V} (h : SD f f' x) (k : N) : SD (fun y => f y k) (fun y => f' y k) x :=
  SD.chain (SD.linear (ContinuousLinearMap.proj (R := ℝ) (φ := fun _ : N => W) k) (f x)) h

theorem SD.mat {m n : ℕ} {f f' : V → Mat ℝ m n} {x : V} (h : ∀ i j, SD (fun y => f y i j) (fun y => f' y i j) x) : SD f f' x :=
  SD.pi (f := (f : V → Fin m → Fin n → ℝ)) (f' := (f' : V → Fin m → Fin n → ℝ)) fun i => SD.pi fun j => h i j

theorem SD.entry {m n : ℕ} {f f' : V → Mat ℝ m n} {x : V} (h : SD f f' x) (i : Fin m) (j : Fin n) : SD (fun y => f y i j) (fun y => f' y i j) x :=
  (SD.at (f := (f : V → Fin m → Fin n → ℝ)) (f' := (f' : V → Fin m → Fin n → ℝ)) h i).at j

theorem SD.matmul {l m n : ℕ} {f f' : V → Mat ℝ l m} {g g' : V → Mat ℝ m n} {x : V} (h : SD f f' x) (h' : SD g g' x) :
    SD (fun y => f y * g y) (fun y => f' y * g x + f x * g' y) x := by
  refine SD.mat fun i j => ?_
  refine (SD.sum univ fun k _ => (h.entry i k).mul (h'.entry k j)).congr (fun y => Matrix.mul_apply) fun y => ?_
  rw [Matrix.add_apply, Matrix.mul_apply, Matrix.mul_apply, ← sum_add_distrib]

theorem SD.matmul_const {l m n : ℕ} {f f' : V → Mat ℝ l m} {x : V} (h : SD f f' x) (B : Mat ℝ m n) : SD (fun y => f y * B) (fun y => f' y * B) x :=
  (h.matmul (SD.const B x)).congr' fun y => by rw [Matrix.mul_zero, add_zero]

theorem SD.transpose {m n : ℕ} {f f' : V → Mat ℝ m n} {x : V} (h : SD f f' x) : SD (fun y => (f y).transpose) (fun y => (f' y).transpose) x :=
  SD.mat fun i j => h.entry j i

/-- Linear functions of finitely many numbers. -/
theorem SD.lin [FiniteDimensional ℝ V] {f : V → W} (h : ∀ y z : V, f (y + z) = f y + f z) (h' : ∀ (a : ℝ) (y : V), f (a • y) = a • f y) (x : V) : SD f f x := by
  let F : V →ₗ[ℝ] W := { toFun := f, map_add' := h, map_smul' := h' }
  exact SD.linear (LinearMap.toContinuousLinearMap F) x

/-- Smooth functions have strict derivatives. -/
theorem SD.of_contDiffAt {f : V → W} {f' : V → W} {x : V} (h : ContDiffAt ℝ 1 f x) (h' : ∀ y, fderiv ℝ f x y = f' y) : SD f f' x :=
  ⟨fderiv ℝ f x, h', h.hasStrictFDerivAt (by norm_num)⟩

theorem SD.of_diff {f f' : V → ℝ} {x : V} (h : ContDiffAt ℝ 1 f x) (h' : Diff f f' x) : SD f f' x := by
  obtain ⟨L, h1, h2⟩ := h'
  exact SD.of_contDiffAt h fun y => by rw [h2.fderiv, h1]

end Serac.Deriv
