import Verif.Model.Elimination
import Verif.Model.TrustRegion
import Verif.Proofs.Ode
import Mathlib.Algebra.Module.Submodule.Basic
import Mathlib.Algebra.Module.Pi
import Mathlib.LinearAlgebra.Span.Basic
import Mathlib.Analysis.InnerProductSpace.PiL2
import Mathlib.Tactic.Linarith
import Mathlib.Tactic.Ring
/-!
# C26: eliminating constrained dofs preserves the constrained solution

Spec.  `Constrained A b X S x`: `x` equals `X` on the constrained set `S` and satisfies the original equations `(A x)ᵢ = bᵢ` on the others.
For the nonlinear solvers: the difference of the final and the initial iterate vanishes on `S`.
-/

noncomputable section
namespace Serac.C26
open Serac.Elim

/-- The constrained problem. -/
def Constrained {n : ℕ} (A : Mat n) (b X : Vec n) (S : Fin n → Prop) (x : Vec n) : Prop :=
  (∀ i, S i → x i = X i) ∧ ∀ i, ¬ S i → (∑ j, A i j * x j) = b i

theorem foldl_set {n : ℕ} (dofs : List (Fin n)) (f : Fin n → ℝ) (b : Vec n) (i : Fin n) :
    dofs.foldl (fun b r => Function.update b r (f r)) b i = if i ∈ dofs then f i else b i := by
  induction dofs generalizing b with
  | nil => simp
  | cons a l ih =>
    rw [List.foldl_cons, ih]
    by_cases h : i ∈ l
    · simp [h]
    · by_cases ha : i = a
      · subst ha; simp [h]
      · simp [h, ha]

/-- The eliminated matrix and the rest sum to the original. -/
theorem C26_sum {n : ℕ} (A : Mat n) (dofs : List (Fin n)) (i j : Fin n) : elim A dofs i j + elimRest A dofs i j = A i j := by
  unfold elimRest; ring

theorem eliminateBC_apply {n : ℕ} (A Ae : Mat n) (dofs : List (Fin n)) (X B : Vec n) (i : Fin n) :
    eliminateBC A Ae dofs X B i = if i ∈ dofs then A i i * X i else B i - ∑ j, Ae i j * X j :=
  foldl_set dofs (fun r => A r r * X r) _ i

theorem elim_self {n : ℕ} (A : Mat n) (dofs : List (Fin n)) (i : Fin n) (hi : i ∈ dofs) : elim A dofs i i = 1 := by
  simp [elim, hi]

/-- The state after applying any list of conditions: the matrix is eliminated for their union, constrained right-hand sides are the
prescribed values, free ones have the constrained columns moved over. -/
theorem applyAll_spec {n : ℕ} (conds : List (List (Fin n))) (X : Vec n) (A : Mat n) (b : Vec n) :
    (applyAll conds X (A, b)).1 = elim A conds.flatten ∧
    ∀ i, (applyAll conds X (A, b)).2 i =
      if i ∈ conds.flatten then X i else b i - ∑ j, if j ∈ conds.flatten then A i j * X j else 0 := by
  induction conds using List.reverseRecOn with
  | nil => exact ⟨by funext i j; simp [applyAll, elim], fun i => by simp [applyAll]⟩
  | append_singleton cs ds ih =>
    obtain ⟨h1, h2⟩ := ih
    unfold applyAll at h1 h2 ⊢
    rw [List.foldl_append, List.foldl_cons, List.foldl_nil, List.flatten_append, List.flatten_singleton]
    generalize cs.foldl (fun s dofs => apply dofs X s) (A, b) = s at h1 h2
    unfold apply
    dsimp only
    rw [h1]
    constructor
    · funext i j
      unfold elim
      simp only [List.mem_append]
      split_ifs <;> first | rfl | tauto
    · intro i
      rw [eliminateBC_apply, h2]
      by_cases hi : i ∈ ds
      · rw [if_pos hi, elim_self _ _ _ hi, one_mul, if_pos (List.mem_append_right _ hi)]
      rw [if_neg hi]
      by_cases hc : i ∈ cs.flatten
      · rw [if_pos hc, if_pos (List.mem_append_left _ hc), Finset.sum_eq_zero, sub_zero]
        intro j _
        have : elimRest (elim A cs.flatten) ds i j = 0 := by
          unfold elimRest elim
          simp only [hc, hi, true_or, false_or, if_true]
          split_ifs <;> simp_all
        rw [this, zero_mul]
      · rw [if_neg hc, if_neg (by rw [List.mem_append]; tauto), sub_sub, ← Finset.sum_add_distrib]
        congr 1
        apply Finset.sum_congr rfl
        intro j _
        unfold elimRest elim
        simp only [hc, hi, false_or, List.mem_append]
        by_cases hj : j ∈ cs.flatten
        · by_cases hjd : j ∈ ds
          · have : i ≠ j := by rintro rfl; exact hc hj
            simp [hj, hjd, this]
          · simp [hj, hjd]
        · by_cases hjd : j ∈ ds
          · have : i ≠ j := by rintro rfl; exact hi hjd
            simp [hj, hjd, this]
          · simp [hj, hjd]

/-- One condition after another, in any number, with overlaps or repetitions: the solutions of the final system are exactly the solutions
of the constrained problem. -/
theorem C26_apply {n : ℕ} (conds : List (List (Fin n))) (X : Vec n) (A : Mat n) (b x : Vec n) :
    (∀ i, (∑ j, (applyAll conds X (A, b)).1 i j * x j) = (applyAll conds X (A, b)).2 i) ↔
      Constrained A b X (fun i => ∃ dofs ∈ conds, i ∈ dofs) x := by
  obtain ⟨h1, h2⟩ := applyAll_spec conds X A b
  have hmem : ∀ i, (∃ dofs ∈ conds, i ∈ dofs) ↔ i ∈ conds.flatten := fun i => by rw [List.mem_flatten]
  simp only [Constrained, hmem]
  rw [h1]
  have hrow : ∀ i, i ∈ conds.flatten → (∑ j, elim A conds.flatten i j * x j) = x i := by
    intro i hi
    rw [Finset.sum_eq_single i]
    · rw [elim_self _ _ _ hi, one_mul]
    · intro j _ hj; simp [elim, hi, hj.symm]
    · simp
  have hfree : ∀ i, i ∉ conds.flatten → (∑ j, elim A conds.flatten i j * x j) = ∑ j, if j ∈ conds.flatten then 0 else A i j * x j := by
    intro i hi
    apply Finset.sum_congr rfl
    intro j _
    by_cases hj : j ∈ conds.flatten
    · have : i ≠ j := by rintro rfl; exact hi hj
      simp [elim, hj, this]
    · simp [elim, hi, hj]
  constructor
  · intro h
    have hX : ∀ i, i ∈ conds.flatten → x i = X i := fun i hi => by
      have := h i; rw [hrow i hi, h2, if_pos hi] at this; exact this
    refine ⟨hX, fun i hi => ?_⟩
    have := h i
    rw [hfree i hi, h2, if_neg hi] at this
    have e : (∑ j, A i j * x j) = (∑ j, if j ∈ conds.flatten then 0 else A i j * x j) + ∑ j, if j ∈ conds.flatten then A i j * X j else 0 := by
      rw [← Finset.sum_add_distrib]
      apply Finset.sum_congr rfl
      intro j _
      by_cases hj : j ∈ conds.flatten
      · simp [hj, hX j hj]
      · simp [hj]
    rw [e, this]; ring
  · rintro ⟨hX, hf⟩ i
    rw [h2]
    by_cases hi : i ∈ conds.flatten
    · rw [hrow i hi, if_pos hi, hX i hi]
    · rw [hfree i hi, if_neg hi, ← hf i hi, eq_sub_iff_add_eq, ← Finset.sum_add_distrib]
      apply Finset.sum_congr rfl
      intro j _
      by_cases hj : j ∈ conds.flatten
      · simp [hj, hX j hj]
      · simp [hj]

/-- Separately or all at once: the same matrix and right-hand side. -/
theorem C26_once {n : ℕ} (conds : List (List (Fin n))) (X : Vec n) (A : Mat n) (b : Vec n) :
    applyAll conds X (A, b) = apply conds.flatten X (A, b) := by
  obtain ⟨h1, h2⟩ := applyAll_spec conds X A b
  obtain ⟨g1, g2⟩ := applyAll_spec [conds.flatten] X A b
  have e : applyAll [conds.flatten] X (A, b) = apply conds.flatten X (A, b) := rfl
  rw [e] at g1 g2
  rw [List.flatten_singleton] at g1 g2
  refine Prod.ext (h1.trans g1.symm) (funext fun i => (h2 i).trans (g2 i).symm)

/-- Elimination keeps symmetry. -/
theorem C26_symmetric {n : ℕ} (A : Mat n) (hA : ∀ i j, A i j = A j i) (dofs : List (Fin n)) (i j : Fin n) :
    elim A dofs i j = elim A dofs j i := by
  unfold elim
  simp only [Or.comm (a := i ∈ dofs), eq_comm (a := i), hA i j]

/-! ## Newton iterations keep the prescribed values -/

/-- Vectors that vanish on the constrained dofs. -/
def Free {n : ℕ} (dofs : List (Fin n)) : Submodule ℝ (Vec n) where
  carrier := {v | ∀ i ∈ dofs, v i = 0}
  add_mem' := fun ha hb i hi => by simp [ha i hi, hb i hi]
  zero_mem' := fun _ _ => rfl
  smul_mem' := fun c v hv i hi => by simp [hv i hi]

theorem zeroSub_mem {n : ℕ} (dofs : List (Fin n)) (r : Vec n) : zeroSub dofs r ∈ Free dofs := fun i hi => by
  have := foldl_set dofs (fun _ => 0) r i
  rw [if_pos hi] at this; exact this

/-- The eliminated matrix maps free vectors to free vectors. -/
theorem C26_invariant {n : ℕ} (A : Mat n) (dofs : List (Fin n)) (v : Vec n) (hv : v ∈ Free dofs) : mulVec (elim A dofs) v ∈ Free dofs := by
  intro i hi
  unfold mulVec
  apply Finset.sum_eq_zero
  intro j _
  by_cases hj : i = j
  · rw [← hj, hv i hi, mul_zero]
  · simp [elim, hi, hj]

/-- Exact linear solves give corrections that vanish on the constrained dofs. -/
theorem C26_exact_correction {n : ℕ} (A : Mat n) (dofs : List (Fin n)) (c r : Vec n) (hr : r ∈ Free dofs)
    (h : ∀ i ∈ dofs, mulVec (elim A dofs) c i = r i) : c ∈ Free dofs := by
  intro i hi
  have := h i hi
  rw [hr i hi] at this
  unfold mulVec at this
  rw [Finset.sum_eq_single i (fun j _ hj => by simp [elim, hi, hj.symm]) (by simp), elim_self _ _ _ hi, one_mul] at this
  exact this

/-- The Krylov vectors of a solver with matrix `J` and preconditioner `P`: everything obtained from the right-hand side by linear
combinations, products with `J` and applications of `P`. -/
inductive Krylov {n : ℕ} (J P : Vec n → Vec n) (r : Vec n) : Vec n → Prop
  | rhs : Krylov J P r r
  | zero : Krylov J P r 0
  | add {u v} : Krylov J P r u → Krylov J P r v → Krylov J P r (u + v)
  | smul (c : ℝ) {u} : Krylov J P r u → Krylov J P r (c • u)
  | mul {u} : Krylov J P r u → Krylov J P r (J u)
  | prec {u} : Krylov J P r u → Krylov J P r (P u)

/-- Inexact solves too: whatever a Krylov method returns after any number of steps (converged or not) vanishes on the constrained dofs, if
the preconditioner maps free vectors to free vectors. -/
theorem C26_krylov_correction {n : ℕ} (A : Mat n) (dofs : List (Fin n)) (P : Vec n → Vec n) (hP : ∀ v ∈ Free dofs, P v ∈ Free dofs)
    (r c : Vec n) (hr : r ∈ Free dofs) (h : Krylov (mulVec (elim A dofs)) P r c) : c ∈ Free dofs := by
  induction h with
  | rhs => exact hr
  | zero => exact Submodule.zero_mem _
  | add _ _ h1 h2 => exact Submodule.add_mem _ h1 h2
  | smul c _ h => exact Submodule.smul_mem _ c h
  | mul _ h => exact C26_invariant A dofs _ h
  | prec _ h => exact hP _ h

/-- A Jacobi (diagonal) preconditioner does. -/
theorem C26_jacobi {n : ℕ} (D : Vec n) (dofs : List (Fin n)) (v : Vec n) (hv : v ∈ Free dofs) : (fun i => v i / D i) ∈ Free dofs :=
  fun i hi => by show v i / D i = 0; rw [hv i hi, zero_div]

/-! ### The Newton solver of C23 -/

section newton
open Serac.Newton
variable {V : Type} [AddCommGroup V] [Module ℝ V]

/-- Iterate within `x₀ + W`, residual in `W`. -/
def Good (W : Submodule ℝ V) (x0 : V) (s : Iter V V) : Prop := s.x - x0 ∈ W ∧ s.r ∈ W

theorem evalAt_good (p : Problem V V) (W : Submodule ℝ V)
    (hop : ∀ x, ∀ r ∈ W, (evaluateNorm p x r).2 ∈ W) (x0 x : V) (s : Iter V V) (hx : x - x0 ∈ W) (hs : s.r ∈ W) : Good W x0 (evalAt p x s) :=
  ⟨hx, hop x s.r hs⟩

theorem backtrack_good (p : Problem V V) (W : Submodule ℝ V) (hop : ∀ x, ∀ r ∈ W, (evaluateNorm p x r).2 ∈ W) (x0 y c : V) (hy : y - x0 ∈ W)
    (hc : c ∈ W) (sgn : ℝ) (prev : Num) (rem : ℕ) (h : ℝ) (s : Iter V V) (hs : Good W x0 s) :
    Good W x0 (backtrack p y c sgn prev rem h s).1 := by
  induction rem generalizing h s with
  | zero => exact hs
  | succ rem ih =>
    rw [backtrack]
    split_ifs
    · exact hs
    · refine ih _ _ (evalAt_good p W hop x0 _ s ?_ hs.2)
      rw [add_sub_right_comm]; exact W.add_mem hy (W.smul_mem _ hc)

theorem iterate_good (p : Problem V V) (W : Submodule ℝ V) (hop : ∀ x, ∀ r ∈ W, (evaluateNorm p x r).2 ∈ W)
    (hcor : ∀ x, ∀ r ∈ W, p.correction x r ∈ W) (o : Options) (x0 : V) (s : Iter V V) (hs : Good W x0 s) : Good W x0 (iterate p o s) := by
  have hc := hcor s.x s.r hs.2
  have hmem : ∀ t : ℝ, s.x + t • p.correction s.x s.r - x0 ∈ W := fun t => by
    rw [add_sub_right_comm]; exact W.add_mem hs.1 (W.smul_mem _ hc)
  have h1 := backtrack_good p W hop x0 s.x _ hs.1 hc (-1) s.norm o.maxLs 1 _ (evalAt_good p W hop x0 _ s (hmem ((-1) * 1)) hs.2)
  unfold iterate
  dsimp only
  split_ifs
  · have h2 := backtrack_good p W hop x0 s.x _ hs.1 hc 1 s.norm o.maxLs 1 _ (evalAt_good p W hop x0 _ _ (hmem (1 * 1)) h1.2)
    exact evalAt_good p W hop x0 _ _ (hmem _) h2.2
  · exact backtrack_good p W hop x0 s.x _ hs.1 hc 1 s.norm o.maxLs 1 _ (evalAt_good p W hop x0 _ _ (hmem (1 * 1)) h1.2)
  · exact h1

theorem loop_good (p : Problem V V) (W : Submodule ℝ V) (hop : ∀ x, ∀ r ∈ W, (evaluateNorm p x r).2 ∈ W)
    (hcor : ∀ x, ∀ r ∈ W, p.correction x r ∈ W) (o : Options) (x0 : V) (goal : Num) (rep : Report) (k it : ℕ) (hk : o.maxIter - it = k)
    (s : Iter V V) (hs : Good W x0 s) : Good W x0 (loop p o goal rep it s).1 := by
  induction k generalizing it s with
  | zero =>
    rw [loop]
    split
    · exact hs
    · split_ifs
      · exact hs
      · exact hs
      · omega
  | succ k ih =>
    rw [loop]
    split
    · exact hs
    · split_ifs
      · exact hs
      · exact hs
      · exact ih (it + 1) (by omega) _ (iterate_good p W hop hcor o x0 s hs)

end newton

/-- The Newton solver with line search, on the residual with boundary conditions: whatever the residual does (it may throw), however many
iterations are made and whether or not it converges, the returned iterate has exactly the values of the initial guess on the constrained
dofs, provided linear solves map free vectors to free vectors (see `C26_exact_correction`, `C26_krylov_correction`). -/
theorem C26_newton {n : ℕ} (res : Vec n → Option (Vec n)) (dofs : List (Fin n)) (norm : Vec n → Newton.Num) (cor : Vec n → Vec n → Vec n)
    (hcor : ∀ x, ∀ r ∈ Free dofs, cor x r ∈ Free dofs) (o : Newton.Options) (x r : Vec n) (hr : r ∈ Free dofs) (rep : Newton.Report) :
    ∀ i ∈ dofs, (Newton.mult ⟨residualOp res dofs, norm, cor⟩ o x r rep).1.x i = x i := by
  intro i hi
  have hop : ∀ y, ∀ q ∈ Free dofs, (Newton.evaluateNorm ⟨residualOp res dofs, norm, cor⟩ y q).2 ∈ Free dofs := by
    intro y q hq
    unfold Newton.evaluateNorm residualOp
    dsimp only
    cases res y with
    | some r' => exact zeroSub_mem dofs r'
    | none => exact hq
  have h : Good (Free dofs) x (Newton.mult ⟨residualOp res dofs, norm, cor⟩ o x r rep).1 := loop_good ⟨residualOp res dofs, norm, cor⟩ (Free dofs) hop hcor o x _ _ _ 0 rfl _
    (evalAt_good ⟨residualOp res dofs, norm, cor⟩ (Free dofs) hop x x { x, r, norm := .nan, trace := [] } (by simp) hr)
  exact sub_eq_zero.1 (h.1 i hi)

/-- So the assumption `Keeps` of C20 and C21 holds for this solver. -/
theorem C26_keeps {n : ℕ} {S : Type} (b : Ode.BCs n) (dofs : List (Fin n)) (hd : ∀ i, i ∈ b.allDofs ↔ i ∈ dofs)
    (res : S → Vec n → Option (Vec n)) (norm : Vec n → Newton.Num) (cor : S → Vec n → Vec n → Vec n)
    (hcor : ∀ st x, ∀ r ∈ Free dofs, cor st x r ∈ Free dofs) (o : Newton.Options) (rep : Newton.Report) :
    Ode.Keeps b (fun st v => (Newton.mult ⟨residualOp (res st) dofs, norm, cor st⟩ o v 0 rep).1.x) :=
  fun st v i hi => C26_newton (res st) dofs norm (cor st) (hcor st) o v 0 (Submodule.zero_mem _) rep i ((hd i).1 hi)

/-! ### The trust-region solver of C24 -/

section trust
open Serac.TrustRegion
open scoped InnerProductSpace
variable {V : Type} [NormedAddCommGroup V] [InnerProductSpace ℝ V]

def OptIn (W : Submodule ℝ V) (v : Option V) : Prop := ∀ w, v = some w → w ∈ W

theorem project_in (W : Submodule ℝ V) (z d : V) (hz : z ∈ W) (hd : d ∈ W) (tr zz zd dd : ℝ) : OptIn W (projectToBoundary z d tr zz zd dd) := by
  intro w hw
  unfold projectToBoundary at hw
  dsimp only at hw
  split at hw
  · cases hw
  · cases hw; exact W.add_mem hz (W.smul_mem _ hd)

theorem between_in (W : Submodule ℝ V) (z d : V) (hz : z ∈ W) (hd : d ∈ W) (tr zz zd dd : ℝ) : OptIn W (projectBetween z d tr zz zd dd) := by
  intro w hw
  unfold projectBetween at hw
  dsimp only at hw
  split at hw
  · cases hw
  · cases hw; exact W.add_mem (W.add_mem hz (W.smul_mem _ hz)) (W.smul_mem _ hd)

theorem dogleg_in (W : Submodule ℝ V) (cp z : Option V) (hc : OptIn W cp) (hz : OptIn W z) (tr : ℝ) : OptIn W (doglegStep cp z tr) := by
  unfold doglegStep
  cases cp with
  | none =>
    cases z with
    | none => intro w hw; cases hw
    | some m =>
      dsimp only
      split_ifs
      · intro w hw; cases hw
      · exact hz
  | some c =>
    dsimp only
    split_ifs
    · intro w hw; cases hw
    · intro w hw; cases hw; exact W.smul_mem _ (hc c rfl)
    · cases z with
      | none => intro w hw; cases hw
      | some m =>
        dsimp only
        split_ifs
        · exact hc
        · exact between_in W c m (hc c rfl) (hz m rfl) _ _ _ _
        · exact hz

theorem cgLoop_in (W : Submodule ℝ V) (H P : V → V) (hH : ∀ v ∈ W, H v ∈ W) (hP : ∀ v ∈ W, P v ∈ W) (tol2 : ℝ) (minCg : ℕ) (tr : ℝ)
    (rem it : ℕ) (z d r : V) (hz : z ∈ W) (hd : d ∈ W) (hr : r ∈ W) (rPr zz zd dd : ℝ) :
    OptIn W (cgLoop H P tol2 minCg tr rem it z d r rPr zz zd dd).1 := by
  induction rem generalizing it z d r rPr zz zd dd with
  | zero => intro w hw; cases hw; exact hz
  | succ rem ih =>
    rw [cgLoop]
    dsimp only
    generalize (if ⟪d, H d⟫_ℝ ≠ 0 then rPr / ⟪d, H d⟫_ℝ else 0) = α
    have hz' : z + α • d ∈ W := W.add_mem hz (W.smul_mem _ hd)
    have hr' : r + α • H d ∈ W := W.add_mem hr (W.smul_mem _ (hH d hd))
    split_ifs
    · exact project_in W z d hz hd _ _ _ _
    · exact project_in W z d hz hd _ _ _ _
    · intro w hw; cases hw; exact hz'
    · intro w hw; cases hw
    · exact ih _ _ _ _ hz' (W.add_mem (W.smul_mem _ (hP _ hr')) (W.smul_mem _ hd)) hr' _ _ _ _

theorem modelStep_in (W : Submodule ℝ V) (H P : V → V) (hH : ∀ v ∈ W, H v ∈ W) (hP : ∀ v ∈ W, P v ∈ W) (r : V) (hr : r ∈ W)
    (norm goal tr : ℝ) (minIter maxCg : ℕ) :
    OptIn W (modelStep H P r norm goal tr minIter maxCg).1 ∧ OptIn W (modelStep H P r norm goal tr minIter maxCg).2.1 := by
  have hs : ∀ t : ℝ, (0 : V) + t • r ∈ W := fun t => W.add_mem W.zero_mem (W.smul_mem _ hr)
  have hcp : OptIn W (if 0 < ⟪r, H r⟫_ℝ then some ((0 : V) + (-⟪r, r⟫_ℝ / ⟪r, H r⟫_ℝ) • r)
    else if ⟪r, r⟫_ℝ = 0 then none else some ((0 : V) + (-tr / Real.sqrt ⟪r, r⟫_ℝ) • r)) := by
    intro w hw
    split_ifs at hw
    · cases hw; exact hs _
    · cases hw; exact hs _
  unfold modelStep
  dsimp only
  generalize (if 0 < ⟪r, H r⟫_ℝ then some ((0 : V) + (-⟪r, r⟫_ℝ / ⟪r, H r⟫_ℝ) • r)
    else if ⟪r, r⟫_ℝ = 0 then none else some ((0 : V) + (-tr / Real.sqrt ⟪r, r⟫_ℝ) • r)) = cp at hcp
  have hmap : ∀ n2 : ℝ, OptIn W (cp.map fun c => (tr / Real.sqrt n2) • c) := by
    intro n2 w hw
    cases cp with
    | none => cases hw
    | some c => cases hw; exact W.smul_mem _ (hcp c rfl)
  have hm : OptIn W (solveModel H P r (max (0.5 * goal) (5 / 10 ^ 5 * norm)) minIter maxCg tr).1 := by
    unfold solveModel
    split_ifs
    · intro w hw; cases hw; exact W.zero_mem
    · exact cgLoop_in W H P hH hP _ _ _ _ _ _ _ _ W.zero_mem (W.add_mem W.zero_mem (W.smul_mem _ (hP r hr))) hr _ _ _ _
  split_ifs <;> first | exact ⟨fun w hw => (by cases hw), fun w hw => (by cases hw)⟩ | exact ⟨hmap _, hmap _⟩ | exact ⟨hcp, hm⟩

/-- Iterate within `x₀ + W`, residuals in `W`. -/
def Good3 (W : Submodule ℝ V) (x0 : V) (s : Inner V) : Prop := s.x - x0 ∈ W ∧ s.r ∈ W ∧ s.rPred ∈ W

/-- The content of the output vector after an evaluation. -/
def leaves (W : Submodule ℝ V) : Res V → Prop
  | .ok r => r ∈ W
  | .bad => True
  | .threw r => r ∈ W

theorem attempts_in (W : Submodule ℝ V) (p : Problem V) (hop : ∀ x, ∀ r ∈ W, leaves W (p.oper x r)) (x0 : V) (goal : ℝ) (cp z : Option V)
    (hc : OptIn W cp) (hz : OptIn W z) (st : Status) (rem : ℕ) (s : Inner V) (hs : Good3 W x0 s) :
    Good3 W x0 (attempts p goal cp z st rem s) := by
  induction rem generalizing s with
  | zero => exact hs
  | succ rem ih =>
    have h : Good3 W x0 (attempt p goal cp z st s).1 := by
      unfold attempt
      cases hd : doglegStep cp z s.tr with
      | none => exact hs
      | some d =>
        have hdW := dogleg_in W cp z hc hz s.tr d hd
        have hx : s.x + d - x0 ∈ W := by rw [add_sub_right_comm]; exact W.add_mem hs.1 hdW
        have hr := hop (s.x + d) s.rPred hs.2.2
        dsimp only
        cases ho : p.oper (s.x + d) s.rPred with
        | bad => exact hs
        | ok rp =>
          rw [ho] at hr
          dsimp only
          split_ifs
          · exact ⟨hx, hr, hr⟩
          · exact ⟨hx, hr, hr⟩
          · exact ⟨hs.1, hs.2.1, hr⟩
        | threw rp =>
          rw [ho] at hr
          dsimp only
          split_ifs
          · exact ⟨hx, hr, hr⟩
          · exact ⟨hx, hr, hr⟩
          · exact ⟨hs.1, hs.2.1, hr⟩
    rw [attempts]
    split_ifs
    · exact h
    · exact ih _ h

theorem loop_in (W : Submodule ℝ V) (p : Problem V) (hop : ∀ x, ∀ r ∈ W, leaves W (p.oper x r)) (hH : ∀ x, ∀ v ∈ W, p.jac x v ∈ W)
    (hP : ∀ x, ∀ v ∈ W, p.prec x v ∈ W) (o : Options) (goal : ℝ) (rep : Newton.Report) (x0 : V) (k it : ℕ) (hk : o.maxIter - it = k)
    (s : Outer V) (hs : Good3 W x0 s.inner) : Good3 W x0 (loop p o goal rep it s).1.inner := by
  induction k generalizing it s with
  | zero =>
    rw [loop]
    split_ifs
    · exact hs
    · exact hs
    · omega
  | succ k ih =>
    rw [loop]
    split_ifs
    · exact hs
    · exact hs
    · refine ih (it + 1) (by omega) _ ?_
      unfold iterate
      dsimp only
      obtain ⟨h1, h2⟩ := modelStep_in W (p.jac s.inner.x)
        (p.prec (if it = 0 ∨ o.maxCg ≤ s.cgCount ∨ 1 ≤ s.cum then s.inner.x else s.precAt)) (hH _) (hP _) s.inner.r hs.2.1 s.inner.norm goal
        s.inner.tr o.minIter o.maxCg
      exact attempts_in W p hop x0 goal _ _ h1 h2 _ _ _ hs

/-- The trust-region solver too: if residuals, Jacobian and preconditioner keep a subspace (here: vectors that vanish on the constrained
dofs), the iterate never leaves `x₀ + W`. -/
theorem C26_trust_region (W : Submodule ℝ V) (p : Problem V) (hop : ∀ x, ∀ r ∈ W, leaves W (p.oper x r)) (hH : ∀ x, ∀ v ∈ W, p.jac x v ∈ W)
    (hP : ∀ x, ∀ v ∈ W, p.prec x v ∈ W) (o : Options) (x r : V) (hr : r ∈ W) (rep : Newton.Report) (s : Outer V) (rep' : Newton.Report)
    (h : mult p o x r rep = .done s rep') : s.inner.x - x ∈ W := by
  unfold mult at h
  have hr' := hop x r hr
  cases ho : p.oper x r with
  | bad => rw [ho] at h; cases h
  | threw _ => rw [ho] at h; cases h
  | ok r0 =>
    rw [ho] at h hr'
    dsimp only at h
    cases h
    have hr0 : r0 ∈ W := hr'
    exact (loop_in W p hop hH hP o _ _ x _ 0 rfl
      { inner := { x, r := r0, norm := ‖r0‖, tr := o.tr0, rPred := 0, trace := [] }, precAt := x, cum := 0, cgCount := 0 }
      ⟨by simp, hr0, W.zero_mem⟩).1

end trust

/-! ## Warm start -/

/-- The warm start puts exactly the future boundary values on the constrained dofs, with or without the linear solve; with an exact solve
the increment satisfies the linearised equations of the free dofs (with the jump of the boundary values taken into account). -/
theorem C26_warm_start {n : ℕ} (dofs : List (Fin n)) (hnd : dofs.Nodup) (g u : Vec n) (hg : ∀ i, i ∉ dofs → g i = 0) (useWarmStart : Bool) (K : Mat n)
    (r : Vec n) (solve : Mat n → Vec n → Vec n)
    (hsolve : ∀ b, ∀ i, mulVec (elim K dofs) (solve (elim K dofs) b) i = b i) :
    let u' := warmStart dofs g u useWarmStart K r solve
    (∀ i ∈ dofs, u' i = g i) ∧ (useWarmStart = false → ∀ i, i ∉ dofs → u' i = u i) ∧
    (useWarmStart = true → ∀ i, i ∉ dofs → (∑ j, K i j * (u' j - u j)) = -r i) := by
  have hsub : ∀ (l : List (Fin n)), l.Nodup → ∀ (v : Vec n) (i : Fin n),
      l.foldl (fun v j => Function.update v j (v j - u j)) v i = if i ∈ l then v i - u i else v i := by
    intro l hl
    induction l with
    | nil => intro v i; simp
    | cons a l ih =>
      intro v i
      rw [List.nodup_cons] at hl
      rw [List.foldl_cons, ih hl.2]
      by_cases ha : i = a
      · subst ha; simp [hl.1]
      · by_cases h : i ∈ l <;> simp [h, ha]
  have hdu : ∀ i, dofs.foldl (fun v j => Function.update v j (v j - u j)) g i = if i ∈ dofs then g i - u i else g i := hsub dofs hnd g
  unfold warmStart
  dsimp only
  generalize dofs.foldl (fun v j => Function.update v j (v j - u j)) g = du at hdu
  cases useWarmStart with
  | false =>
    simp only [Bool.false_eq_true, if_false]
    refine ⟨fun i hi => ?_, fun _ i hi => ?_, fun h => absurd h (by simp)⟩
    · rw [hdu, if_pos hi]; ring
    · rw [hdu, if_neg hi, hg i hi, add_zero]
  | true =>
    simp only [if_true]
    set r1 := eliminateBC (elim K dofs) (elimRest K dofs) dofs du (fun i => r i * (-1)) with hr1
    set r2 := dofs.foldl (fun v j => Function.update v j (du j)) r1 with hr2
    have hr2v : ∀ i, r2 i = if i ∈ dofs then du i else r1 i := fun i => foldl_set dofs (fun j => du j) r1 i
    -- the augmented system is that of `apply`, right-hand side -r and prescribed increment du
    have hsys : ∀ i, (∑ j, (applyAll [dofs] du (K, fun i => r i * (-1))).1 i j * solve (elim K dofs) r2 j) =
        (applyAll [dofs] du (K, fun i => r i * (-1))).2 i := by
      intro i
      show mulVec (elim K dofs) (solve (elim K dofs) r2) i = r1 i
      rw [hsolve, hr2v]
      by_cases hi : i ∈ dofs
      · rw [if_pos hi, hr1, eliminateBC_apply, if_pos hi, elim_self _ _ _ hi, one_mul]
      · rw [if_neg hi]
    obtain ⟨h1, h2⟩ := (C26_apply [dofs] du K (fun i => r i * (-1)) _).1 hsys
    refine ⟨fun i hi => ?_, fun h => absurd h (by simp), fun _ i hi => ?_⟩
    · rw [h1 i ⟨dofs, by simp, hi⟩, hdu, if_pos hi]; ring
    · have := h2 i (by simpa using hi)
      rw [← mul_neg_one]
      refine Eq.trans (Finset.sum_congr rfl fun j _ => ?_) this
      ring

/-! ## Non-vacuity -/

/-- A 2×2 system with the first dof prescribed to 5. -/
example : Constrained (fun i j => if i = j then 2 else 1) (fun _ => 7) (fun _ => 5) (fun i : Fin 2 => i = 0) ![5, 1] := by
  refine ⟨fun i hi => by subst hi; rfl, fun i hi => ?_⟩
  have : i = 1 := by omega
  subst this
  simp [Fin.sum_univ_two]
  norm_num

example : (![0, 3] : Vec 2) ∈ Free [(0 : Fin 2)] := fun i hi => by rw [List.mem_singleton.1 hi]; rfl

end Serac.C26
