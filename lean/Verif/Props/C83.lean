import Verif.Proofs.LocalNewton
import Verif.Props.C81
/-!
# C83: Newton's method near regular solutions

The Newton solver of the library (full step, backtracking, opposite direction, last cut) applied to a residual with eliminated boundary conditions.  Near a branch of regular
solutions the full step is always taken, error and residual shrink by any prescribed factor (`C83_step`), quadratically if the Jacobian is Lipschitz (`C83_quadratic`), the solver
reports convergence within the expected number of iterations and the error is bounded by the final residual (`C83_solve`).  Load stepping with or without warm start follows the
branch (`C83_track`).  A regular solution lies on a branch (`C83_branch`), the only solutions near it (`C83_isolated`).
-/

noncomputable section
namespace Serac.C83
open Set Filter Topology Metric
open Elim (mulVec elim)

variable {n : ℕ}

/-! ## Specification -/

/-- A matrix as a continuous linear map. -/
def lin (A : Elim.Mat n) : Elim.Vec n →L[ℝ] Elim.Vec n := LinearMap.toContinuousLinearMap (Matrix.mulVecLin (Matrix.of A))

/-- `u` solves the problem with residual `R` and boundary values `g` for all parameters in `I`, and is regular: the residual is differentiable near `u`, its derivative `J` is
continuous at `u`, and the Jacobian with eliminated boundary conditions is invertible. -/
structure Branch (fixed : List (Fin n)) (R : ℝ → Elim.Vec n → Elim.Vec n) (J : ℝ → Elim.Vec n → Elim.Mat n) (g : ℝ → Elim.Vec n) (I : Set ℝ) (u : ℝ → Elim.Vec n) : Prop where
  compact : IsCompact I
  continuous : ContinuousOn u I
  boundary : ∀ t ∈ I, ∀ k ∈ fixed, u t k = g t k
  balance : ∀ t ∈ I, ∀ k ∉ fixed, R t (u t) k = 0
  smooth : ∀ t ∈ I, ∀ᶠ p in 𝓝[I ×ˢ univ] (t, u t), HasFDerivAt (R p.1) (lin (J p.1 p.2)) p.2
  jacobian : ∀ t ∈ I, ContinuousWithinAt (fun p : ℝ × Elim.Vec n => J p.1 p.2) (I ×ˢ univ) (t, u t)
  regular : ∀ t ∈ I, ∀ w, mulVec (elim (J t (u t)) fixed) w = 0 → w = 0

/-- The number the solver computes from a residual is comparable to its largest entry. -/
def Measures (norm : Elim.Vec n → Newton.Num) : Prop :=
  ∃ N : Elim.Vec n → ℝ, (∀ r, norm r = .fin (N r)) ∧ ∃ lo > 0, ∃ hi > 0, ∀ r, lo * ‖r‖ ≤ N r ∧ N r ≤ hi * ‖r‖

/-- What the modules hand to the Newton solver. -/
def problem (R : Elim.Vec n → Elim.Vec n) (J : Elim.Vec n → Elim.Mat n) (fixed : List (Fin n)) (linear : Elim.Mat n → Elim.Vec n → Elim.Vec n) (norm : Elim.Vec n → Newton.Num) :
    Newton.Problem (Elim.Vec n) (Elim.Vec n) :=
  ⟨Elim.residualOp (fun u => some (R u)) fixed, norm, fun u r => linear (elim (J u) fixed) r⟩

/-- Distance of `x` from solving the problem, boundary values included. -/
def defect (fixed : List (Fin n)) (R : Elim.Vec n → Elim.Vec n) (g x : Elim.Vec n) : Elim.Vec n := fun k => if k ∈ fixed then x k - g k else R x k

/-! ## The map whose zeros are the solutions -/

theorem lin_apply (A : Elim.Mat n) (w : Elim.Vec n) : lin A w = mulVec A w := rfl

/-- Only the rows of the fixed dofs replaced. -/
def rows (A : Elim.Mat n) (fixed : List (Fin n)) : Elim.Mat n := fun k m => if k ∈ fixed then (if k = m then 1 else 0) else A k m

theorem rows_apply (A : Elim.Mat n) (fixed : List (Fin n)) (w : Elim.Vec n) (k : Fin n) : mulVec (rows A fixed) w k = if k ∈ fixed then w k else mulVec A w k := by
  unfold mulVec rows
  split_ifs
  · simp
  · rfl

/-- On vectors that vanish at the fixed dofs it does not matter whether columns are replaced, too. -/
theorem rows_free (A : Elim.Mat n) (fixed : List (Fin n)) {w : Elim.Vec n} (hw : ∀ k ∈ fixed, w k = 0) : mulVec (rows A fixed) w = mulVec (elim A fixed) w := by
  funext k
  rw [rows_apply, C77.elim_free A fixed w hw]
  dsimp only
  split_ifs with hk
  · exact hw k hk
  · rfl

theorem elim_zero {A : Elim.Mat n} {fixed : List (Fin n)} {c r : Elim.Vec n} (h : mulVec (elim A fixed) c = r) (hr : ∀ k ∈ fixed, r k = 0) : ∀ k ∈ fixed, c k = 0 :=
  C26.C26_exact_correction A fixed c r hr fun k _ => congrFun h k

theorem rows_injective {A : Elim.Mat n} {fixed : List (Fin n)} : (∀ w, mulVec (elim A fixed) w = 0 → w = 0) ↔ ∀ w, mulVec (rows A fixed) w = 0 → w = 0 := by
  constructor
  · intro h w hw
    refine h w ?_
    rw [← rows_free A fixed fun k hk => ?_, hw]
    have := congrFun hw k
    rwa [rows_apply, if_pos hk] at this
  · intro h w hw
    refine h w ?_
    rw [rows_free A fixed (elim_zero hw fun _ _ => rfl), hw]

theorem hasFDerivAt_defect {fixed : List (Fin n)} {R : Elim.Vec n → Elim.Vec n} {A : Elim.Mat n} {x : Elim.Vec n} (h : HasFDerivAt R (lin A) x) (g : Elim.Vec n) :
    HasFDerivAt (defect fixed R g) (lin (rows A fixed)) x := by
  rw [hasFDerivAt_pi']
  intro k
  by_cases hk : k ∈ fixed
  · have e : (fun y => defect fixed R g y k) = fun y : Elim.Vec n => y k - g k := by
      funext y
      rw [defect, if_pos hk]
    have e' : (ContinuousLinearMap.proj k).comp (lin (rows A fixed)) = (ContinuousLinearMap.proj k : Elim.Vec n →L[ℝ] ℝ) := by
      ext1 w
      change mulVec (rows A fixed) w k = w k
      rw [rows_apply, if_pos hk]
    rw [e, e']
    exact ((ContinuousLinearMap.proj k : Elim.Vec n →L[ℝ] ℝ).hasFDerivAt).sub_const _
  · have e : (fun y => defect fixed R g y k) = fun y => R y k := by
      funext y
      rw [defect, if_neg hk]
    have e' : (ContinuousLinearMap.proj k).comp (lin (rows A fixed)) = (ContinuousLinearMap.proj k : Elim.Vec n →L[ℝ] ℝ).comp (lin A) := by
      ext1 w
      change mulVec (rows A fixed) w k = mulVec A w k
      rw [rows_apply, if_neg hk]
    rw [e, e']
    exact (hasFDerivAt_pi'.1 h) k

theorem lin_continuous : Continuous (lin : Elim.Mat n → _) := by
  let T : Elim.Mat n →ₗ[ℝ] (Elim.Vec n →L[ℝ] Elim.Vec n) :=
    { toFun := lin
      map_add' := fun A B => by
        ext1 w
        funext k
        change ∑ m, (A k m + B k m) * w m = ∑ m, A k m * w m + ∑ m, B k m * w m
        rw [← Finset.sum_add_distrib]
        exact Finset.sum_congr rfl fun m _ => by ring
      map_smul' := fun c A => by
        ext1 w
        funext k
        change ∑ m, (c * A k m) * w m = c * ∑ m, A k m * w m
        rw [Finset.mul_sum]
        exact Finset.sum_congr rfl fun m _ => by ring }
  exact T.continuous_of_finiteDimensional

theorem rows_continuous (fixed : List (Fin n)) : Continuous fun A : Elim.Mat n => rows A fixed := by
  refine continuous_pi fun k => continuous_pi fun m => ?_
  unfold rows
  split_ifs
  · exact continuous_const
  · exact continuous_const
  · exact (continuous_apply m).comp (continuous_apply k)

section Main
variable {fixed : List (Fin n)} {R : ℝ → Elim.Vec n → Elim.Vec n} {J : ℝ → Elim.Vec n → Elim.Mat n} {g : ℝ → Elim.Vec n} {I : Set ℝ} {u : ℝ → Elim.Vec n}
  {linear : Elim.Mat n → Elim.Vec n → Elim.Vec n} {norm : Elim.Vec n → Newton.Num}

theorem Branch.zero (h : Branch fixed R J g I u) {t : ℝ} (ht : t ∈ I) : defect fixed (R t) (g t) (u t) = 0 := by
  funext k
  unfold defect
  split_ifs with hk
  · rw [h.boundary t ht k hk, sub_self]; rfl
  · exact h.balance t ht k hk

theorem Branch.near (h : Branch fixed R J g I u) {θ : ℝ} (hθ : 0 < θ) (hθ1 : θ ≤ 1) :
    ∃ δ > 0, ∃ a > 0, ∃ b > 0, LocalNewton.Near (fun t => defect fixed (R t) (g t)) (fun t x => lin (rows (J t x) fixed)) u I I θ δ a b :=
  LocalNewton.near_exists h.compact h.continuous (fun t ht => h.zero ht) (fun t ht => (h.smooth t ht).mono fun p hp => hasFDerivAt_defect hp _)
    (fun t ht => (lin_continuous.comp (rows_continuous fixed)).continuousAt.comp_continuousWithinAt (h.jacobian t ht)) (fun t ht => rows_injective.1 (h.regular t ht)) hθ hθ1

/-- On vectors with the right boundary values the residual with zeroed entries is the defect. -/
theorem zeroSub_defect {R : Elim.Vec n → Elim.Vec n} {g x : Elim.Vec n} (hx : ∀ k ∈ fixed, x k = g k) : Elim.zeroSub fixed (R x) = defect fixed R g x := by
  funext k
  rw [C78.zeroSub_apply, defect]
  split_ifs with hk
  · rw [hx k hk, sub_self]
  · rfl

theorem evaluate {R : Elim.Vec n → Elim.Vec n} {J : Elim.Vec n → Elim.Mat n} {g x : Elim.Vec n} (hx : ∀ k ∈ fixed, x k = g k) (q : Elim.Vec n) :
    Newton.evaluateNorm (problem R J fixed linear norm) x q = (norm (defect fixed R g x), defect fixed R g x) := by
  unfold Newton.evaluateNorm problem Elim.residualOp
  dsimp only
  rw [zeroSub_defect hx]

/-- An injective square matrix: the exact solver solves. -/
theorem solved (hlin : C78.Exact linear) {A : Elim.Mat n} (hA : ∀ w, mulVec A w = 0 → w = 0) (b : Elim.Vec n) : mulVec A (linear A b) = b := by
  refine hlin A b ?_
  have hi : Function.Injective (lin A : Elim.Vec n →ₗ[ℝ] Elim.Vec n) := by
    rw [← LinearMap.ker_eq_bot, LinearMap.ker_eq_bot']
    exact fun w hw => hA w hw
  exact LinearMap.injective_iff_surjective.1 hi b

variable {θ δ a b lo hi : ℝ} {N : Elim.Vec n → ℝ}

/-- A correction of the Newton solver. -/
theorem correction (hlin : C78.Exact linear) (ha : 0 < a) (hn : LocalNewton.Near (fun t => defect fixed (R t) (g t)) (fun t x => lin (rows (J t x) fixed)) u I I θ δ a b) (hδ : 0 ≤ δ) {t : ℝ}
    (ht : t ∈ I) {x : Elim.Vec n} (hx : ∀ k ∈ fixed, x k = g t k) (hd : ‖x - u t‖ ≤ δ) :
    let c := linear (elim (J t x) fixed) (defect fixed (R t) (g t) x)
    mulVec (elim (J t x) fixed) c = defect fixed (R t) (g t) x ∧ (∀ k ∈ fixed, c k = 0) ∧ lin (rows (J t x) fixed) c = defect fixed (R t) (g t) x := by
  have hinj : ∀ w, mulVec (elim (J t x) fixed) w = 0 → w = 0 := rows_injective.2 fun w hw => by
    have := hn.inj t ht t ht (by simpa using hδ) x hd w
    rw [lin_apply, hw, norm_zero] at this
    exact norm_le_zero_iff.1 (by nlinarith [norm_nonneg w])
  have h1 := solved hlin hinj (defect fixed (R t) (g t) x)
  have h2 := elim_zero h1 fun k hk => by rw [defect, if_pos hk, hx k hk, sub_self]
  exact ⟨h1, h2, by rw [lin_apply, rows_free _ _ h2, h1]⟩

/-- One iteration. -/
theorem iteration (hlin : C78.Exact linear) (hN : ∀ r, norm r = .fin (N r)) (hlo : 0 < lo) (hhi : 0 < hi) (hb : ∀ r, lo * ‖r‖ ≤ N r ∧ N r ≤ hi * ‖r‖) (ha : 0 < a) (hδ : 0 ≤ δ)
    (hθ : 0 < θ) (hθ1 : hi / lo * θ < 1)
    (hn : LocalNewton.Near (fun t => defect fixed (R t) (g t)) (fun t x => lin (rows (J t x) fixed)) u I I θ δ a b) {t : ℝ} (ht : t ∈ I)
    (o : Newton.Options) (s : Newton.Iter (Elim.Vec n) (Elim.Vec n)) (hs : C78.Current (problem (R t) (J t) fixed linear norm) s) (hx : ∀ k ∈ fixed, s.x k = g t k) (hd : ‖s.x - u t‖ ≤ δ) :
    let s' := Newton.iterate (problem (R t) (J t) fixed linear norm) o s
    C78.Current (problem (R t) (J t) fixed linear norm) s' ∧ (∀ k ∈ fixed, s'.x k = g t k) ∧ ‖s'.x - u t‖ ≤ θ * ‖s.x - u t‖ ∧
      N (defect fixed (R t) (g t) s'.x) ≤ hi / lo * θ * N (defect fixed (R t) (g t) s.x) ∧
      (s.x ≠ u t → s'.trace.length = s.trace.length + 1) ∧ mulVec (elim (J t s.x) fixed) (s.x - s'.x) = defect fixed (R t) (g t) s.x := by
  set p := problem (R t) (J t) fixed linear norm with hp
  set H := defect fixed (R t) (g t) with hH
  obtain ⟨q, hq⟩ := hs
  rw [evaluate hx] at hq
  have hsn : s.norm = .fin (N (H s.x)) := by rw [← hN]; exact congrArg Prod.fst hq
  have hsr : s.r = H s.x := congrArg Prod.snd hq
  set c := p.correction s.x s.r with hc
  obtain ⟨hc1, hc2, hc3⟩ := correction hlin ha hn hδ ht hx hd
  rw [show linear (elim (J t s.x) fixed) (defect fixed (R t) (g t) s.x) = c by rw [hc, hsr]; rfl] at hc1 hc2 hc3
  obtain ⟨h1, h2⟩ := hn.step t ht t ht (by simpa using hδ) s.x hd s.x hd c hc3
  change ‖H (s.x - c)‖ ≤ θ * ‖H s.x‖ at h2
  have hx' : ∀ k ∈ fixed, (s.x - c) k = g t k := fun k hk => by rw [Pi.sub_apply, hc2 k hk, sub_zero, hx k hk]
  have hcN : N (H (s.x - c)) ≤ hi / lo * θ * N (H s.x) := by
    have e1 := (hb (H (s.x - c))).2
    have e2 := (hb (H s.x)).1
    have e3 : hi * ‖H (s.x - c)‖ ≤ hi * (θ * ‖H s.x‖) := mul_le_mul_of_nonneg_left h2 hhi.le
    have e4 : ‖H s.x‖ ≤ N (H s.x) / lo := by rw [le_div_iff₀ hlo]; linarith
    have e5 : hi * (θ * ‖H s.x‖) ≤ hi * (θ * (N (H s.x) / lo)) := by
      refine mul_le_mul_of_nonneg_left (mul_le_mul_of_nonneg_left e4 hθ.le) hhi.le
    have e6 : hi * (θ * (N (H s.x) / lo)) = hi / lo * θ * N (H s.x) := by ring
    linarith
  have hadd : s.x + ((-1 : ℝ) * 1) • c = s.x - c := by rw [mul_one, neg_one_smul, ← sub_eq_add_neg]
  by_cases hz : H s.x = 0
  · have hc0 : c = 0 := by
      have := hn.inj t ht t ht (by simpa using hδ) s.x hd c
      rw [hc3, show defect fixed (R t) (g t) s.x = 0 from hz, norm_zero] at this
      exact norm_le_zero_iff.1 (by nlinarith [norm_nonneg c])
    have hst : (Newton.iterate p o s).x = s.x := C78.iterate_stay p o s (by rw [← hc, hc0])
    have hxu : s.x = u t := by
      have := hn.lower t ht s.x hd
      rw [show defect fixed (R t) (g t) s.x = 0 from hz, norm_zero] at this
      exact sub_eq_zero.1 (norm_le_zero_iff.1 (by nlinarith [norm_nonneg (s.x - u t)]))
    dsimp only
    rw [hst]
    refine ⟨C78.iterate_current p o s, hx, by rw [hxu]; simp, ?_, fun h => absurd hxu h, ?_⟩
    · rw [hz]
      have := hb 0
      rw [norm_zero, mul_zero, mul_zero] at this
      rw [le_antisymm this.2 this.1, mul_zero]
    · rw [sub_self, hz]
      funext k
      simp [mulVec]
  · have hpos : 0 < N (H s.x) := lt_of_lt_of_le (mul_pos hlo (norm_pos_iff.2 hz)) (hb _).1
    have hev : (Newton.evalAt p (s.x - c) s).norm = .fin (N (H (s.x - c))) := by
      rw [← hN]
      exact congrArg Prod.fst (evaluate (R := R t) (J := J t) (linear := linear) (norm := norm) hx' s.r)
    have hit : Newton.iterate p o s = Newton.evalAt p (s.x - c) s := by
      rw [C78.iterate_full p o s, ← hc, hadd]
      rw [← hc, hadd, hev, hsn]
      change N (H (s.x - c)) < N (H s.x)
      refine hcN.trans_lt ?_
      calc hi / lo * θ * N (H s.x) < 1 * N (H s.x) := mul_lt_mul_of_pos_right hθ1 hpos
        _ = N (H s.x) := one_mul _
    dsimp only
    rw [hit]
    refine ⟨⟨s.r, rfl⟩, hx', h1, hcN, fun _ => rfl, ?_⟩
    change mulVec _ (s.x - (s.x - c)) = _
    rw [sub_sub_cancel, hc1]

/-- The loop. -/
theorem loop_converges (hlin : C78.Exact linear) (hN : ∀ r, norm r = .fin (N r)) (hlo : 0 < lo) (hhi : 0 < hi) (hb : ∀ r, lo * ‖r‖ ≤ N r ∧ N r ≤ hi * ‖r‖) (ha : 0 < a) (hδ : 0 ≤ δ)
    (hθ : 0 < θ) (hθ' : θ ≤ 1) (hθ1 : hi / lo * θ < 1)
    (hn : LocalNewton.Near (fun t => defect fixed (R t) (g t)) (fun t x => lin (rows (J t x) fixed)) u I I θ δ a b) {t : ℝ} (ht : t ∈ I)
    (o : Newton.Options) (rep : Newton.Report) (goal e0 n0 : ℝ) (he0 : e0 ≤ δ) (he00 : 0 ≤ e0) {K : ℕ} (hK : o.minIter ≤ K) (hK' : K ≤ o.maxIter) (hg : (hi / lo * θ) ^ K * n0 ≤ goal)
    (it : ℕ) (hit : it ≤ K) (s : Newton.Iter (Elim.Vec n) (Elim.Vec n)) (hs : C78.Current (problem (R t) (J t) fixed linear norm) s) (hx : ∀ k ∈ fixed, s.x k = g t k)
    (hd : ‖s.x - u t‖ ≤ θ ^ it * e0) (hd' : N (defect fixed (R t) (g t) s.x) ≤ (hi / lo * θ) ^ it * n0) :
    let f := Newton.loop (problem (R t) (J t) fixed linear norm) o (.fin goal) rep it s
    f.2.converged = true ∧ it ≤ f.2.finalIter ∧ f.2.finalIter ≤ K ∧ f.2.initialNorm = rep.initialNorm ∧ (∀ k ∈ fixed, f.1.x k = g t k) ∧ ‖f.1.x - u t‖ ≤ θ ^ f.2.finalIter * e0 ∧
      f.2.finalNorm = .fin (N (defect fixed (R t) (g t) f.1.x)) ∧ N (defect fixed (R t) (g t) f.1.x) ≤ goal := by
  set p := problem (R t) (J t) fixed linear norm with hp
  have normOf : ∀ s : Newton.Iter (Elim.Vec n) (Elim.Vec n), C78.Current p s → (∀ k ∈ fixed, s.x k = g t k) → s.norm = .fin (N (defect fixed (R t) (g t) s.x)) := by
    rintro s ⟨q, hq⟩ hx
    rw [evaluate hx] at hq
    rw [← hN]
    exact congrArg Prod.fst hq
  induction hk : K - it generalizing it s with
  | zero =>
    have : it = K := by omega
    subst this
    have hsn := normOf s hs hx
    rw [Newton.loop, hsn]
    dsimp only
    rw [if_pos ⟨show N (defect fixed (R t) (g t) s.x) ≤ goal from hd'.trans hg, hK⟩]
    exact ⟨rfl, le_rfl, le_rfl, rfl, hx, hd, rfl, hd'.trans hg⟩
  | succ k ih =>
    have hsn := normOf s hs hx
    rw [Newton.loop, hsn]
    dsimp only
    split_ifs with h1 h2
    · exact ⟨rfl, le_rfl, hit, rfl, hx, hd, rfl, h1.1⟩
    · omega
    · have hdδ : ‖s.x - u t‖ ≤ δ := hd.trans ((mul_le_mul_of_nonneg_right (pow_le_one₀ hθ.le hθ') he00).trans (by rw [one_mul]; exact he0))
      obtain ⟨i1, i2, i3, i4, -, -⟩ := iteration hlin hN hlo hhi hb ha hδ hθ hθ1 hn ht o s hs hx hdδ
      have hq : 0 ≤ hi / lo * θ := by positivity
      obtain ⟨j1, j2, j3⟩ := ih (it + 1) (by omega) (Newton.iterate p o s) i2
        (i3.trans (by rw [pow_succ', mul_assoc]; exact mul_le_mul_of_nonneg_left hd hθ.le))
        (i4.trans ((mul_le_mul_of_nonneg_left hd' hq).trans (le_of_eq (by rw [pow_succ']; ring)))) i1 (by omega)
      exact ⟨j1, by omega, j3⟩

theorem goal_eq (o : Newton.Options) (x : ℝ) : Newton.Num.max (Newton.Num.scale o.relTol (.fin x)) (.fin o.absTol) = .fin (max (o.relTol * x) o.absTol) := by
  unfold Newton.Num.max Newton.Num.scale
  dsimp only
  split_ifs with h
  · rw [max_eq_right (le_of_lt h)]
  · rw [max_eq_left (not_lt.1 h)]

/-- The whole solve, with explicit constants. -/
theorem solve_near (hlin : C78.Exact linear) (hN : ∀ r, norm r = .fin (N r)) (hlo : 0 < lo) (hhi : 0 < hi) (hb : ∀ r, lo * ‖r‖ ≤ N r ∧ N r ≤ hi * ‖r‖) (ha : 0 < a) (hδ : 0 ≤ δ)
    (hθ : 0 < θ) (hθ' : θ ≤ 1) (hθ1 : hi / lo * θ < 1)
    (hn : LocalNewton.Near (fun t => defect fixed (R t) (g t)) (fun t x => lin (rows (J t x) fixed)) u I I θ δ a b) {t : ℝ} (ht : t ∈ I)
    (o : Newton.Options) (rep : Newton.Report) {x : Elim.Vec n} (r : Elim.Vec n) (hx : ∀ k ∈ fixed, x k = g t k) (hd : ‖x - u t‖ ≤ δ) {K : ℕ} (hK : o.minIter ≤ K) (hK' : K ≤ o.maxIter)
    (hg : (hi / lo * θ) ^ K * N (defect fixed (R t) (g t) x) ≤ max (o.relTol * N (defect fixed (R t) (g t) x)) o.absTol) :
    let f := Newton.mult (problem (R t) (J t) fixed linear norm) o x r rep
    f.2.converged = true ∧ f.2.finalIter ≤ K ∧ f.2.initialNorm = .fin (N (defect fixed (R t) (g t) x)) ∧ (∀ k ∈ fixed, f.1.x k = g t k) ∧
      ‖f.1.x - u t‖ ≤ θ ^ f.2.finalIter * ‖x - u t‖ ∧
      f.2.finalNorm = .fin (N (defect fixed (R t) (g t) f.1.x)) ∧ N (defect fixed (R t) (g t) f.1.x) ≤ max (o.relTol * N (defect fixed (R t) (g t) x)) o.absTol := by
  unfold Newton.mult
  dsimp only
  have hcur : C78.Current (problem (R t) (J t) fixed linear norm) (Newton.evalAt (problem (R t) (J t) fixed linear norm) x ⟨x, r, .nan, []⟩) := ⟨r, rfl⟩
  have hn0 : (Newton.evalAt (problem (R t) (J t) fixed linear norm) x ⟨x, r, .nan, []⟩).norm = .fin (N (defect fixed (R t) (g t) x)) := by
    rw [← hN]
    exact congrArg Prod.fst (evaluate (R := R t) (J := J t) (linear := linear) (norm := norm) hx r)
  rw [hn0, goal_eq]
  obtain ⟨h1, -, h2⟩ := loop_converges hlin hN hlo hhi hb ha hδ hθ hθ' hθ1 hn ht o { rep with initialNorm := .fin (N (defect fixed (R t) (g t) x)) } _ ‖x - u t‖ _ hd (norm_nonneg _) hK hK' hg
    0 (Nat.zero_le _) _ hcur hx (by rw [pow_zero, one_mul]; exact le_rfl) (by rw [pow_zero, one_mul]; exact le_rfl)
  exact ⟨h1, h2⟩

/-- A factor for both error and norm. -/
theorem factor {θ lo hi : ℝ} (hθ : 0 < θ) (hθ1 : θ < 1) (hlo : 0 < lo) (hhi : 0 < hi) : ∃ θ' : ℝ, 0 < θ' ∧ θ' ≤ θ ∧ θ' ≤ 1 ∧ hi / lo * θ' ≤ θ := by
  refine ⟨min θ (θ * (lo / hi)), lt_min hθ (by positivity), min_le_left _ _, (min_le_left _ _).trans hθ1.le, ?_⟩
  calc hi / lo * min θ (θ * (lo / hi)) ≤ hi / lo * (θ * (lo / hi)) := mul_le_mul_of_nonneg_left (min_le_right _ _) (by positivity)
    _ = θ := by field_simp

/-- **C83, iterations.**  For any factor `θ` there is a neighbourhood of the branch in which every iteration takes the full Newton step with one evaluation of the residual, whatever
the line search options, and both the distance to the solution and the computed norm shrink by `θ`; at the solution it stays. -/
theorem C83_step (h : Branch fixed R J g I u) (hlin : C78.Exact linear) (hN : ∀ r, norm r = .fin (N r)) (hm : ∃ lo > 0, ∃ hi > 0, ∀ r, lo * ‖r‖ ≤ N r ∧ N r ≤ hi * ‖r‖) {θ : ℝ}
    (hθ : 0 < θ) (hθ1 : θ < 1) :
    ∃ δ > 0, ∀ t ∈ I, ∀ (o : Newton.Options) (s : Newton.Iter (Elim.Vec n) (Elim.Vec n)), C78.Current (problem (R t) (J t) fixed linear norm) s → (∀ k ∈ fixed, s.x k = g t k) →
      ‖s.x - u t‖ ≤ δ →
      let s' := Newton.iterate (problem (R t) (J t) fixed linear norm) o s
      (∀ k ∈ fixed, s'.x k = g t k) ∧ ‖s'.x - u t‖ ≤ θ * ‖s.x - u t‖ ∧ N (defect fixed (R t) (g t) s'.x) ≤ θ * N (defect fixed (R t) (g t) s.x) ∧
      (s.x ≠ u t → s'.trace.length = s.trace.length + 1) ∧ mulVec (elim (J t s.x) fixed) (s.x - s'.x) = defect fixed (R t) (g t) s.x := by
  obtain ⟨lo, hlo, hi, hhi, hb⟩ := hm
  obtain ⟨θ', h0, h1, h2, h3⟩ := factor hθ hθ1 hlo hhi
  obtain ⟨δ, hδ, a, ha, b, -, hn⟩ := h.near h0 h2
  refine ⟨δ, hδ, fun t ht o s hs hx hd => ?_⟩
  obtain ⟨-, i2, i3, i4, i5⟩ := iteration hlin hN hlo hhi hb ha hδ.le h0 (h3.trans_lt hθ1) hn ht o s hs hx hd
  have hpos : 0 ≤ N (defect fixed (R t) (g t) s.x) := (mul_nonneg hlo.le (norm_nonneg _)).trans (hb _).1
  exact ⟨i2, i3.trans (mul_le_mul_of_nonneg_right h1 (norm_nonneg _)), i4.trans (mul_le_mul_of_nonneg_right h3 hpos), i5⟩

/-- **C83, solves.**  Started near the branch with the right boundary values, the solver reports convergence after at most `K` iterations if `K` is allowed and enough for a method
with factor `θ`; the error has shrunk by `θ` in every iteration made and is bounded by the norm reported. -/
theorem C83_solve (h : Branch fixed R J g I u) (hlin : C78.Exact linear) (hN : ∀ r, norm r = .fin (N r)) (hm : ∃ lo > 0, ∃ hi > 0, ∀ r, lo * ‖r‖ ≤ N r ∧ N r ≤ hi * ‖r‖) {θ : ℝ}
    (hθ : 0 < θ) (hθ1 : θ < 1) :
    ∃ δ > 0, ∃ C > 0, ∀ t ∈ I, ∀ (o : Newton.Options) (rep : Newton.Report) (x r : Elim.Vec n) (K : ℕ), (∀ k ∈ fixed, x k = g t k) → ‖x - u t‖ ≤ δ → o.minIter ≤ K → K ≤ o.maxIter →
      (θ ^ K ≤ o.relTol ∨ θ ^ K * (C * ‖x - u t‖) ≤ o.absTol) →
      let f := Newton.mult (problem (R t) (J t) fixed linear norm) o x r rep
      f.2.converged = true ∧ f.2.finalIter ≤ K ∧ (∀ k ∈ fixed, f.1.x k = g t k) ∧ ‖f.1.x - u t‖ ≤ θ ^ f.2.finalIter * ‖x - u t‖ ∧
      ∃ e e0 : ℝ, f.2.finalNorm = .fin e ∧ f.2.initialNorm = .fin e0 ∧ e = N (defect fixed (R t) (g t) f.1.x) ∧ e ≤ max (o.relTol * e0) o.absTol ∧ ‖f.1.x - u t‖ ≤ C * e := by
  obtain ⟨lo, hlo, hi, hhi, hb⟩ := hm
  obtain ⟨θ', h0, h1, h2, h3⟩ := factor hθ hθ1 hlo hhi
  obtain ⟨δ, hδ, a, ha, b, hb0, hn⟩ := h.near h0 h2
  refine ⟨δ, hδ, max (hi * b) (1 / (lo * a)), lt_max_of_lt_left (by positivity), fun t ht o rep x r K hx hd hK hK' htol => ?_⟩
  have hpos : ∀ y, 0 ≤ N y := fun y => (mul_nonneg hlo.le (norm_nonneg _)).trans (hb y).1
  have hq : 0 ≤ hi / lo * θ' := by positivity
  have hup : N (defect fixed (R t) (g t) x) ≤ max (hi * b) (1 / (lo * a)) * ‖x - u t‖ := by
    refine (hb _).2.trans ((mul_le_mul_of_nonneg_left (hn.upper t ht x hd) hhi.le).trans ?_)
    rw [← mul_assoc]
    exact mul_le_mul_of_nonneg_right (le_max_left _ _) (norm_nonneg _)
  have hpow : (hi / lo * θ') ^ K ≤ θ ^ K := pow_le_pow_left₀ hq h3 K
  obtain ⟨k1, k2, k3, k4, k5, k6, k7⟩ := solve_near hlin hN hlo hhi hb ha hδ.le h0 h2 (h3.trans_lt hθ1) hn ht o rep r hx hd hK hK' (by
    rcases htol with ht' | ht'
    · exact le_max_of_le_left (mul_le_mul_of_nonneg_right (hpow.trans ht') (hpos _))
    · refine le_max_of_le_right (le_trans ?_ ht')
      exact mul_le_mul hpow hup (hpos _) (by positivity))
  refine ⟨k1, k2, k4, k5.trans (mul_le_mul_of_nonneg_right (pow_le_pow_left₀ h0.le h1 _) (norm_nonneg _)), _, _, k6, k3, rfl, k7, ?_⟩
  have hd' : ‖(Newton.mult (problem (R t) (J t) fixed linear norm) o x r rep).1.x - u t‖ ≤ δ :=
    k5.trans ((mul_le_mul_of_nonneg_right (pow_le_one₀ h0.le h2) (norm_nonneg _)).trans (by rw [one_mul]; exact hd))
  have e1 := hn.lower t ht _ hd'
  have e2 := (hb (defect fixed (R t) (g t) (Newton.mult (problem (R t) (J t) fixed linear norm) o x r rep).1.x)).1
  have e3 : lo * a * ‖(Newton.mult (problem (R t) (J t) fixed linear norm) o x r rep).1.x - u t‖ ≤
      N (defect fixed (R t) (g t) (Newton.mult (problem (R t) (J t) fixed linear norm) o x r rep).1.x) := by
    rw [mul_assoc]
    exact (mul_le_mul_of_nonneg_left e1 hlo.le).trans e2
  have e4 : ‖(Newton.mult (problem (R t) (J t) fixed linear norm) o x r rep).1.x - u t‖ ≤
      1 / (lo * a) * N (defect fixed (R t) (g t) (Newton.mult (problem (R t) (J t) fixed linear norm) o x r rep).1.x) := by
    rw [one_div, ← div_eq_inv_mul, le_div_iff₀ (by positivity), mul_comm]
    exact e3
  exact e4.trans (mul_le_mul_of_nonneg_right (le_max_right _ _) (hpos _))

/-- **C83, isolation.**  Near the branch there are no other solutions. -/
theorem C83_isolated (h : Branch fixed R J g I u) :
    ∃ δ > 0, ∀ t ∈ I, ∀ x, ‖x - u t‖ ≤ δ → (∀ k ∈ fixed, x k = g t k) → (∀ k ∉ fixed, R t x k = 0) → x = u t := by
  obtain ⟨δ, hδ, a, ha, b, -, hn⟩ := h.near one_pos le_rfl
  refine ⟨δ, hδ, fun t ht x hd hx hR => ?_⟩
  have hz : defect fixed (R t) (g t) x = 0 := by
    funext k
    unfold defect
    split_ifs with hk
    · rw [hx k hk, sub_self]; rfl
    · exact hR k hk
  have := hn.lower t ht x hd
  rw [hz, norm_zero] at this
  exact sub_eq_zero.1 (norm_le_zero_iff.1 (by nlinarith [norm_nonneg (x - u t)]))

/-- **C83, quadratic convergence.**  With a Jacobian that is Lipschitz near a regular solution, every iteration near it squares the error, up to a factor. -/
theorem C83_quadratic {R : Elim.Vec n → Elim.Vec n} {J : Elim.Vec n → Elim.Mat n} {g z : Elim.Vec n} (hz : ∀ k ∈ fixed, z k = g k) (hR : ∀ k ∉ fixed, R z k = 0) {r Λ : ℝ} (hr : 0 < r)
    (hder : ∀ x, ‖x - z‖ ≤ r → HasFDerivAt R (lin (J x)) x) (hlip : ∀ x, ‖x - z‖ ≤ r → ∀ k m, |J x k m - J z k m| ≤ Λ * ‖x - z‖)
    (hreg : ∀ w, mulVec (elim (J z) fixed) w = 0 → w = 0) (hlin : C78.Exact linear) (hN : ∀ r, norm r = .fin (N r))
    (hm : ∃ lo > 0, ∃ hi > 0, ∀ r, lo * ‖r‖ ≤ N r ∧ N r ≤ hi * ‖r‖) :
    ∃ δ > 0, ∃ C > 0, ∀ (o : Newton.Options) (s : Newton.Iter (Elim.Vec n) (Elim.Vec n)), C78.Current (problem R J fixed linear norm) s → (∀ k ∈ fixed, s.x k = g k) → ‖s.x - z‖ ≤ δ →
      let s' := Newton.iterate (problem R J fixed linear norm) o s
      (∀ k ∈ fixed, s'.x k = g k) ∧ ‖s'.x - z‖ ≤ C * ‖s.x - z‖ ^ 2 ∧ ‖s'.x - z‖ ≤ δ := by
  have hnorm : ∀ {A : Elim.Mat n} {q : ℝ}, 0 ≤ q → (∀ k m, |A k m| ≤ q) → ‖lin A‖ ≤ n * q := by
    intro A q hq hA
    refine ContinuousLinearMap.opNorm_le_bound _ (by positivity) fun w => ?_
    refine (pi_norm_le_iff_of_nonneg (by positivity)).2 fun k => ?_
    change |∑ m, A k m * w m| ≤ _
    calc |∑ m, A k m * w m| ≤ ∑ m : Fin n, q * ‖w‖ := (Finset.abs_sum_le_sum_abs _ _).trans (Finset.sum_le_sum fun m _ => by
          rw [abs_mul]
          exact mul_le_mul (hA k m) (norm_le_pi_norm w m) (abs_nonneg _) hq)
      _ = n * q * ‖w‖ := by rw [Finset.sum_const, Finset.card_univ, Fintype.card_fin, nsmul_eq_mul, mul_assoc]
  have hbr : Branch fixed (fun _ => R) (fun _ => J) (fun _ => g) {0} fun _ => z := by
    refine ⟨isCompact_singleton, continuousOn_const, fun _ _ => hz, fun _ _ => hR, fun t ht => ?_, fun t ht => ?_, fun _ _ => hreg⟩
    · refine Filter.Eventually.filter_mono nhdsWithin_le_nhds ?_
      have : ∀ᶠ x in 𝓝 z, HasFDerivAt R (lin (J x)) x := by
        filter_upwards [Metric.closedBall_mem_nhds z hr] with x hx
        exact hder x (by rwa [mem_closedBall, dist_eq_norm] at hx)
      exact (continuous_snd.tendsto (t, z)).eventually this
    · have hc : ContinuousAt J z := by
        rw [continuousAt_pi]
        intro k
        rw [continuousAt_pi]
        intro m
        rw [ContinuousAt, tendsto_iff_norm_sub_tendsto_zero]
        have h0 : Tendsto (fun x : Elim.Vec n => Λ * ‖x - z‖) (𝓝 z) (𝓝 0) := by
          have : Continuous fun x : Elim.Vec n => Λ * ‖x - z‖ := by fun_prop
          simpa using this.tendsto z
        refine squeeze_zero' (Filter.Eventually.of_forall fun _ => norm_nonneg _) ?_ h0
        filter_upwards [Metric.closedBall_mem_nhds z hr] with x hx
        exact hlip x (by rwa [mem_closedBall, dist_eq_norm] at hx) k m
      exact (hc.comp (f := Prod.snd) (x := (t, z)) continuousAt_snd).continuousWithinAt
  obtain ⟨δ, hδ, hstep⟩ := C83_step hbr hlin hN hm (θ := 1 / 2) (by norm_num) (by norm_num)
  have hΛ : 0 ≤ |Λ| := abs_nonneg Λ
  obtain ⟨δ', hδ', K, hK, hq⟩ := LocalNewton.quadratic (H := defect fixed R g) (D := fun x => lin (rows (J x) fixed)) (z := z) (hbr.zero (t := 0) rfl)
    (rows_injective.1 hreg) hr (Λ := n * |Λ| + 1) (by positivity) (fun x hx => hasFDerivAt_defect (hder x hx) g) (fun x hx => by
      have e : lin (rows (J x) fixed) - lin (rows (J z) fixed) = lin fun k m => rows (J x) fixed k m - rows (J z) fixed k m := by
        ext1 w
        funext k
        change ∑ m, rows (J x) fixed k m * w m - ∑ m, rows (J z) fixed k m * w m = ∑ m, (rows (J x) fixed k m - rows (J z) fixed k m) * w m
        rw [← Finset.sum_sub_distrib]
        exact Finset.sum_congr rfl fun m _ => by ring
      rw [e]
      refine (hnorm (q := |Λ| * ‖x - z‖) (by positivity) fun k m => ?_).trans ?_
      · unfold rows
        split_ifs
        · rw [sub_self, abs_zero]; positivity
        · rw [sub_self, abs_zero]; positivity
        · exact (hlip x hx k m).trans (mul_le_mul_of_nonneg_right (le_abs_self Λ) (norm_nonneg _))
      · nlinarith [norm_nonneg (x - z)])
  refine ⟨min δ δ', lt_min hδ hδ', K, hK, fun o s hs hx hd => ?_⟩
  obtain ⟨i2, i3, -, -, i6⟩ := hstep 0 rfl o s hs hx (hd.trans (min_le_left _ _))
  refine ⟨i2, ?_, i3.trans ?_⟩
  · have hc := elim_zero i6 fun k hk => by rw [defect, if_pos hk, hx k hk, sub_self]
    have := hq s.x (hd.trans (min_le_right _ _)) (s.x - (Newton.iterate (problem R J fixed linear norm) o s).x) (by rw [lin_apply, rows_free _ _ hc, i6])
    rwa [sub_sub_cancel] at this
  · have := norm_nonneg (s.x - z)
    linarith

/-- **C83, existence.**  A regular solution lies on a branch of solutions, for loads and boundary values that change continuously. -/
theorem C83_branch {τ : ℝ} {z : Elim.Vec n} (hz : ∀ k ∈ fixed, z k = g τ k) (hR : ∀ k ∉ fixed, R τ z k = 0) (hD : ∀ᶠ p in 𝓝 (τ, z), HasFDerivAt (R p.1) (lin (J p.1 p.2)) p.2)
    (hJ : ∀ᶠ p in 𝓝 (τ, z), ContinuousAt (fun p : ℝ × Elim.Vec n => J p.1 p.2) p) (hRt : ∀ᶠ p in 𝓝 (τ, z), ContinuousAt (fun t => R t p.2) p.1) (hg : Continuous g)
    (hreg : ∀ w, mulVec (elim (J τ z) fixed) w = 0 → w = 0) : ∃ η > 0, ∃ u : ℝ → Elim.Vec n, u τ = z ∧ Branch fixed R J g (Icc (τ - η) (τ + η)) u := by
  have h0 : defect fixed (R τ) (g τ) z = 0 := by
    funext k
    unfold defect
    split_ifs with hk
    · rw [hz k hk, sub_self]; rfl
    · exact hR k hk
  have hc : ContinuousAt (fun p : ℝ × Elim.Vec n => lin (rows (J p.1 p.2) fixed)) (τ, z) :=
    (lin_continuous.comp (rows_continuous fixed)).continuousAt.comp (f := fun p : ℝ × Elim.Vec n => J p.1 p.2) hJ.self_of_nhds
  have ht : ∀ᶠ p in 𝓝 (τ, z), ContinuousAt (fun t => defect fixed (R t) (g t) p.2) p.1 := by
    filter_upwards [hRt] with p hp
    refine continuousAt_pi.2 fun k => ?_
    by_cases hk : k ∈ fixed
    · simp only [defect, if_pos hk]
      exact continuousAt_const.sub ((continuous_apply k).comp hg).continuousAt
    · simp only [defect, if_neg hk]
      exact (continuous_apply k).continuousAt.comp hp
  obtain ⟨η, hη, u, hu, huc, hall⟩ := LocalNewton.branch_exists (H := fun t => defect fixed (R t) (g t)) (D := fun t x => lin (rows (J t x) fixed)) h0
    (hD.mono fun p hp => hasFDerivAt_defect hp _) hc ht (rows_injective.1 hreg) (hD.eventually_nhds.and hJ)
  refine ⟨η, hη, u, hu, isCompact_Icc, huc, fun t h k hk => ?_, fun t h k hk => ?_, fun t h => ?_, fun t h => ?_, fun t h => ?_⟩
  · have := congrFun (hall t h).1 k
    rw [defect, if_pos hk] at this
    exact sub_eq_zero.1 this
  · have := congrFun (hall t h).1 k
    rwa [defect, if_neg hk] at this
  · exact (hall t h).2.1.1.filter_mono nhdsWithin_le_nhds
  · exact (hall t h).2.1.2.continuousWithinAt
  · exact rows_injective.2 (hall t h).2.2

/-- **C83, norm.**  The Euclidean norm of MFEM is such a measure. -/
theorem C83_euclid : Measures fun r : Elim.Vec n => .fin √(∑ k, r k ^ 2) := by
  refine ⟨fun r => √(∑ k, r k ^ 2), fun _ => rfl, 1, one_pos, √(n + 1), by positivity, fun r => ⟨?_, ?_⟩⟩
  · rw [one_mul]
    refine (pi_norm_le_iff_of_nonneg (Real.sqrt_nonneg _)).2 fun k => ?_
    rw [Real.norm_eq_abs]
    exact Real.abs_le_sqrt (Finset.single_le_sum (f := fun k => r k ^ 2) (fun k _ => sq_nonneg _) (Finset.mem_univ k))
  · rw [← Real.sqrt_sq (norm_nonneg r), ← Real.sqrt_mul (by positivity)]
    refine Real.sqrt_le_sqrt ?_
    have : ∑ k, r k ^ 2 ≤ ∑ _k : Fin n, ‖r‖ ^ 2 := Finset.sum_le_sum fun k _ => by
      rw [← sq_abs (r k), ← Real.norm_eq_abs]
      exact pow_le_pow_left₀ (norm_nonneg _) (norm_le_pi_norm r k) 2
    rw [Finset.sum_const, Finset.card_univ, Fintype.card_fin, nsmul_eq_mul] at this
    nlinarith [sq_nonneg ‖r‖]

/-- A load step: start values from the last solution, by replacing boundary values or by the linearised warm start, then the Newton solver at the new time. -/
def loadStep (fixed : List (Fin n)) (R : ℝ → Elim.Vec n → Elim.Vec n) (J : ℝ → Elim.Vec n → Elim.Mat n) (g : ℝ → Elim.Vec n) (o : Solid.StaticSolver n) (x : Solid.StaticState n) (dt : ℝ) :
    Solid.StaticState n :=
  let y := Elim.warmStart fixed (g (x.time + dt)) x.u o.warm (J x.time x.u) (R (x.time + dt) x.u) o.linear
  let s := Newton.mult (problem (R (x.time + dt)) (J (x.time + dt)) fixed o.linear o.norm) o.newton y x.r x.rep
  ⟨x.time + dt, s.1.x, s.1.r, s.2⟩

def loadRun (fixed : List (Fin n)) (R : ℝ → Elim.Vec n → Elim.Vec n) (J : ℝ → Elim.Vec n → Elim.Mat n) (g : ℝ → Elim.Vec n) (o : Solid.StaticSolver n) (x : Solid.StaticState n) (dts : List ℝ) :
    Solid.StaticState n := dts.foldl (loadStep fixed R J g o) x

/-- What the warm start returns: boundary values, and the old values elsewhere or a step of the linearised problem. -/
theorem warm_start (hnd : fixed.Nodup) (hlin : C78.Exact linear) {A : Elim.Mat n} (hA : ∀ w, mulVec (elim A fixed) w = 0 → w = 0) {R : Elim.Vec n → Elim.Vec n} {g x : Elim.Vec n}
    (hg : ∀ k ∉ fixed, g k = 0) (warm : Bool) :
    let y := Elim.warmStart fixed g x warm A (R x) linear
    (∀ k ∈ fixed, y k = g k) ∧ (warm = false → ∀ k ∉ fixed, y k = x k) ∧ (warm = true → lin (rows A fixed) (x - y) = defect fixed R g x) := by
  obtain ⟨h1, h2, h3⟩ := C26.C26_warm_start fixed hnd g x hg warm A (R x) linear fun b k => congrFun (solved hlin hA b) k
  refine ⟨h1, h2, fun hw => ?_⟩
  funext k
  rw [lin_apply, rows_apply, defect]
  split_ifs with hk
  · rw [Pi.sub_apply, h1 k hk]
  · have := h3 hw k hk
    have e : mulVec A (x - Elim.warmStart fixed g x warm A (R x) linear) k = -∑ j, A k j * (Elim.warmStart fixed g x warm A (R x) linear j - x j) := by
      rw [← Finset.sum_neg_distrib]
      exact Finset.sum_congr rfl fun j _ => by rw [Pi.sub_apply]; ring
    rw [e, this, neg_neg]

/-- **C83, load stepping.**  Small enough steps and tolerances: a run that starts close to the branch stays as close to it as one likes, and every solve reports convergence, with or
without warm start, whatever the line search. -/
theorem C83_track {t0 t1 : ℝ} (h : Branch fixed R J g (Icc t0 t1) u) (hnd : fixed.Nodup) (hg : ∀ t, ∀ k ∉ fixed, g t k = 0) (hlin : C78.Exact linear) (hm : Measures norm) {ε : ℝ} (hε : 0 < ε) :
    ∃ step > 0, ∃ rel > 0, ∃ tol > 0, ∃ start > 0, ∀ (warm : Bool) (o : Newton.Options), (o.relTol : ℝ) ≤ rel → (o.absTol : ℝ) ≤ tol →
      (∃ K, o.minIter ≤ K ∧ K ≤ o.maxIter ∧ (1 / 2 : ℝ) ^ K ≤ o.relTol) → ∀ x : Solid.StaticState n, x.time ∈ Icc t0 t1 → ‖x.u - u x.time‖ ≤ start →
      ∀ dts : List ℝ, (∀ dt ∈ dts, 0 ≤ dt ∧ dt ≤ step) → x.time + dts.sum ≤ t1 →
        let f := loadRun fixed R J g ⟨warm, linear, norm, o⟩ x dts
        f.time = x.time + dts.sum ∧ ‖f.u - u f.time‖ ≤ ε ∧ (dts ≠ [] → f.rep.converged = true) := by
  obtain ⟨N, hN, lo, hlo, hi, hhi, hb⟩ := hm
  obtain ⟨θ, hθ0, hθ1, hθ2, hθ3⟩ := factor (θ := 1 / 2) (by norm_num) (by norm_num) hlo hhi
  obtain ⟨δ, hδ, a, ha, b, hb0, hn⟩ := h.near hθ0 hθ2
  set σ := min ε δ with hσ
  have hσ0 : 0 < σ := lt_min hε hδ
  have hσδ : σ ≤ δ := min_le_right _ _
  obtain ⟨η, hη, huc⟩ := Metric.uniformContinuousOn_iff_le.1 (h.compact.uniformContinuousOn_of_continuous h.continuous) (σ / 2) (by positivity)
  refine ⟨min η δ, lt_min hη hδ, lo * a / (2 * (hi * b)), by positivity, lo * a * (σ / 2), by positivity, σ / 2, by positivity, ?_⟩
  rintro warm o hrel habs ⟨K, hK, hK', hKr⟩ x hx hxu dts
  have hpos : ∀ y, 0 ≤ N y := fun y => (mul_nonneg hlo.le (norm_nonneg _)).trans (hb y).1
  have hstep : ∀ (x : Solid.StaticState n) (dt : ℝ), x.time ∈ Icc t0 t1 → ‖x.u - u x.time‖ ≤ σ / 2 → 0 ≤ dt → dt ≤ min η δ → x.time + dt ≤ t1 →
      let f := loadStep fixed R J g ⟨warm, linear, norm, o⟩ x dt
      f.time = x.time + dt ∧ ‖f.u - u f.time‖ ≤ σ / 2 ∧ f.rep.converged = true := by
    intro x dt hx hxu hdt0 hdt ht1
    have ht : x.time + dt ∈ Icc t0 t1 := ⟨by linarith [hx.1], ht1⟩
    set t := x.time + dt with htd
    have hmove : ‖u x.time - u t‖ ≤ σ / 2 := by
      rw [← dist_eq_norm]
      refine huc _ hx _ ht ?_
      rw [Real.dist_eq, htd, sub_add_cancel_left, abs_neg, abs_of_nonneg hdt0]
      exact hdt.trans (min_le_left _ _)
    have hfar : ‖x.u - u t‖ ≤ σ := by
      have := norm_add_le (x.u - u x.time) (u x.time - u t)
      rw [sub_add_sub_cancel] at this
      linarith
    have hdd : |x.time - t| ≤ δ := by
      rw [htd, sub_add_cancel_left, abs_neg, abs_of_nonneg hdt0]
      exact hdt.trans (min_le_right _ _)
    have hinj : ∀ w, mulVec (elim (J x.time x.u) fixed) w = 0 → w = 0 := rows_injective.2 fun w hw => by
      have := hn.inj t ht x.time hx hdd x.u (by linarith) w
      rw [lin_apply, hw, norm_zero] at this
      exact norm_le_zero_iff.1 (by nlinarith [norm_nonneg w])
    obtain ⟨w1, w2, w3⟩ := warm_start (R := R t) (g := g t) (x := x.u) hnd hlin hinj (hg t) warm
    set y := Elim.warmStart fixed (g t) x.u warm (J x.time x.u) (R t x.u) linear with hy
    have hyu : ‖y - u t‖ ≤ σ := by
      cases hw : warm with
      | true =>
        have := (hn.step t ht x.time hx hdd x.u (by linarith) x.u (hfar.trans hσδ) (x.u - y) (w3 hw)).1
        rw [sub_sub_cancel] at this
        refine this.trans ((mul_le_mul_of_nonneg_right hθ2 (norm_nonneg _)).trans ?_)
        rw [one_mul]
        exact hfar
      | false =>
        refine (pi_norm_le_iff_of_nonneg hσ0.le).2 fun k => ?_
        by_cases hk : k ∈ fixed
        · rw [Pi.sub_apply, w1 k hk, h.boundary t ht k hk, sub_self, norm_zero]
          exact hσ0.le
        · rw [Pi.sub_apply, w2 hw k hk]
          exact (norm_le_pi_norm (x.u - u t) k).trans hfar
    have hpow : (hi / lo * θ) ^ K ≤ (1 / 2 : ℝ) ^ K := pow_le_pow_left₀ (by positivity) hθ3 K
    obtain ⟨k1, -, -, -, k5, -, k7⟩ := solve_near hlin hN hlo hhi hb ha hδ.le hθ0 hθ2 (hθ3.trans_lt (by norm_num)) hn ht o x.rep x.r w1 (hyu.trans hσδ) hK hK'
      (le_max_of_le_left (mul_le_mul_of_nonneg_right (hpow.trans hKr) (hpos _)))
    refine ⟨rfl, ?_, k1⟩
    set z := (Newton.mult (problem (R t) (J t) fixed linear norm) o y x.r x.rep).1.x with hz
    change ‖z - u t‖ ≤ σ / 2
    have hzδ : ‖z - u t‖ ≤ δ := k5.trans ((mul_le_mul_of_nonneg_right (pow_le_one₀ hθ0.le hθ2) (norm_nonneg _)).trans (by rw [one_mul]; exact hyu.trans hσδ))
    have e1 : lo * (a * ‖z - u t‖) ≤ N (defect fixed (R t) (g t) z) := (mul_le_mul_of_nonneg_left (hn.lower t ht z hzδ) hlo.le).trans (hb _).1
    have e2 : N (defect fixed (R t) (g t) y) ≤ hi * (b * σ) :=
      (hb _).2.trans (mul_le_mul_of_nonneg_left ((hn.upper t ht y (hyu.trans hσδ)).trans (mul_le_mul_of_nonneg_left hyu hb0.le)) hhi.le)
    have e3 : max (o.relTol * N (defect fixed (R t) (g t) y)) o.absTol ≤ lo * a * (σ / 2) := by
      refine max_le ?_ habs
      calc (o.relTol : ℝ) * N (defect fixed (R t) (g t) y) ≤ lo * a / (2 * (hi * b)) * (hi * (b * σ)) := mul_le_mul hrel e2 (hpos _) (by positivity)
        _ = lo * a * (σ / 2) := by field_simp
    have e4 : lo * a * ‖z - u t‖ ≤ lo * a * (σ / 2) := by
      rw [mul_assoc]
      exact e1.trans (k7.trans e3)
    exact le_of_mul_le_mul_left e4 (by positivity)
  have hrun : ∀ (dts : List ℝ) (x : Solid.StaticState n), x.time ∈ Icc t0 t1 → ‖x.u - u x.time‖ ≤ σ / 2 → (∀ dt ∈ dts, 0 ≤ dt ∧ dt ≤ min η δ) → x.time + dts.sum ≤ t1 →
      let f := loadRun fixed R J g ⟨warm, linear, norm, o⟩ x dts
      f.time = x.time + dts.sum ∧ ‖f.u - u f.time‖ ≤ σ / 2 ∧ (dts ≠ [] → f.rep.converged = true) ∧ (x.rep.converged = true → f.rep.converged = true) := by
    intro dts
    induction dts with
    | nil => exact fun x _ hxu _ _ => ⟨by simp [loadRun], hxu, fun h => absurd rfl h, id⟩
    | cons dt dts ih =>
      intro x hx hxu hd ht
      rw [List.sum_cons] at ht
      have hnn : 0 ≤ dts.sum := List.sum_nonneg fun d hd' => (hd d (List.mem_cons_of_mem _ hd')).1
      obtain ⟨hdt0, hdt⟩ := hd dt List.mem_cons_self
      obtain ⟨s1, s2, s3⟩ := hstep x dt hx hxu hdt0 hdt (by linarith)
      obtain ⟨r1, r2, -, r4⟩ := ih (loadStep fixed R J g ⟨warm, linear, norm, o⟩ x dt) (by rw [s1]; exact ⟨by linarith [hx.1], by linarith⟩) s2
        (fun d hd' => hd d (List.mem_cons_of_mem _ hd')) (by rw [s1]; linarith)
      refine ⟨?_, r2, fun _ => r4 s3, fun _ => r4 s3⟩
      rw [List.sum_cons, ← add_assoc, ← s1]
      exact r1
  intro hd ht
  obtain ⟨r1, r2, r3, -⟩ := hrun dts x hx hxu hd ht
  exact ⟨r1, r2.trans (by have : σ ≤ ε := min_le_left _ _; linarith), r3⟩

end Main

/-! ## Examples: a cubic spring pulled at one end -/

def exR (_ : ℝ) (x : Elim.Vec 2) : Elim.Vec 2 := ![x 0, x 1 + x 1 ^ 3 - (x 0 + x 0 ^ 3)]

def exJ (_ : ℝ) (x : Elim.Vec 2) : Elim.Mat 2 := ![![1, 0], ![-(1 + 3 * x 0 ^ 2), 1 + 3 * x 1 ^ 2]]

def exg (t : ℝ) : Elim.Vec 2 := ![t, 0]

def exu (t : ℝ) : Elim.Vec 2 := ![t, t]

theorem ex_smooth (t : ℝ) (x : Elim.Vec 2) : HasFDerivAt (exR t) (lin (exJ t x)) x := by
  rw [hasFDerivAt_pi']
  have h0 : HasFDerivAt (fun x : Fin 2 → ℝ => x 0) (ContinuousLinearMap.proj 0 : (Fin 2 → ℝ) →L[ℝ] ℝ) x := (ContinuousLinearMap.proj 0 : (Fin 2 → ℝ) →L[ℝ] ℝ).hasFDerivAt
  have h1 : HasFDerivAt (fun x : Fin 2 → ℝ => x 1) (ContinuousLinearMap.proj 1 : (Fin 2 → ℝ) →L[ℝ] ℝ) x := (ContinuousLinearMap.proj 1 : (Fin 2 → ℝ) →L[ℝ] ℝ).hasFDerivAt
  intro k
  fin_cases k
  · refine h0.congr_fderiv ?_
    ext1 w
    change w 0 = ∑ m, exJ t x 0 m * w m
    simp [exJ, Fin.sum_univ_two]
  · refine ((h1.add (h1.pow 3)).sub (h0.add (h0.pow 3))).congr_fderiv ?_
    ext1 w
    change _ = ∑ m, exJ t x 1 m * w m
    simp [exJ, Fin.sum_univ_two]
    ring

theorem ex_branch (t1 : ℝ) : Branch [0] exR exJ exg (Icc 0 t1) exu where
  compact := isCompact_Icc
  continuous := (continuous_pi fun k => by fin_cases k <;> exact continuous_id).continuousOn
  boundary := fun t _ k hk => by
    rw [List.mem_singleton] at hk
    subst hk
    rfl
  balance := fun t _ k hk => by
    revert hk
    fin_cases k <;> simp [exR, exu]
  smooth := fun t _ => Eventually.of_forall fun p => ex_smooth p.1 p.2
  jacobian := fun t _ => by
    refine (continuous_pi fun k => continuous_pi fun m => ?_).continuousWithinAt
    fin_cases k <;> fin_cases m <;> simp only [exJ] <;> fun_prop
  regular := fun t _ => rows_injective.2 fun w hw => by
    have e0 := congrFun hw 0
    have e1 := congrFun hw 1
    rw [rows_apply] at e0 e1
    simp [mulVec, exJ, exu, Fin.sum_univ_two] at e0 e1
    rw [e0] at e1
    have h1 : w 1 = 0 := by
      have h3 : (1 + 3 * t ^ 2) * w 1 = 0 := by linarith
      exact (mul_eq_zero.1 h3).resolve_left (by positivity)
    funext k
    fin_cases k
    · exact e0
    · exact h1

/-- A direct solver. -/
def exLinear (J : Elim.Mat n) (b : Elim.Vec n) : Elim.Vec n := by classical exact if h : ∃ x, mulVec J x = b then h.choose else b

theorem ex_exact : C78.Exact (exLinear (n := n)) := by
  intro J b h
  unfold exLinear
  rw [dif_pos h]
  exact h.choose_spec

/-- The pulled spring, followed to any end and with any accuracy, with the default options of a Newton solver but tight tolerances. -/
example (rep : Newton.Report) (t1 : ℝ) (ht1 : 0 ≤ t1) (warm : Bool) (ε : ℝ) (hε : 0 < ε) : ∃ step > 0, ∃ o : Newton.Options, ∀ dts : List ℝ, (∀ dt ∈ dts, 0 ≤ dt ∧ dt ≤ step) → dts.sum ≤ t1 →
    let f := loadRun [0] exR exJ exg ⟨warm, exLinear, fun r => .fin √(∑ k, r k ^ 2), o⟩ ⟨0, 0, 0, rep⟩ dts
    |f.u 1 - dts.sum| ≤ ε := by
  obtain ⟨step, hstep, rel, hrel, tol, htol, start, hstart, hrun⟩ := C83_track (ex_branch t1) (by decide) (fun t k hk => by revert hk; fin_cases k <;> simp [exg]) ex_exact
    C83_euclid hε
  obtain ⟨K, hK⟩ := exists_pow_lt_of_lt_one hrel (show (1 / 2 : ℝ) < 1 by norm_num)
  refine ⟨step, hstep, ⟨⟨rel, hrel.le⟩, ⟨tol, htol.le⟩, K, 0, 20⟩, fun dts hd hs => ?_⟩
  obtain ⟨r1, r2, -⟩ := hrun warm ⟨⟨rel, hrel.le⟩, ⟨tol, htol.le⟩, K, 0, 20⟩ le_rfl le_rfl ⟨K, Nat.zero_le _, le_rfl, hK.le⟩ ⟨0, 0, 0, rep⟩ ⟨le_rfl, ht1⟩
    (by
      have e : exu 0 = 0 := by funext k; fin_cases k <;> rfl
      rw [show ((0 : Elim.Vec 2) - exu 0) = 0 by rw [e, sub_zero], norm_zero]
      exact hstart.le) dts hd (by simpa using hs)
  have := (norm_le_pi_norm _ (1 : Fin 2)).trans r2
  rw [r1, Pi.sub_apply, Real.norm_eq_abs] at this
  simpa [exu] using this

/-- One solve from a nearby start. -/
example (rep : Newton.Report) : ∃ δ > 0, ∀ x : Elim.Vec 2, x 0 = 1 → |x 1 - 1| ≤ δ → ∃ o : Newton.Options,
    (Newton.mult (problem (exR 1) (exJ 1) [0] exLinear fun r => .fin √(∑ k, r k ^ 2)) o x 0 rep).2.converged = true := by
  obtain ⟨N, hN, hm⟩ := C83_euclid (n := 2)
  obtain ⟨δ, hδ, C, -, h⟩ := C83_solve (ex_branch 1) ex_exact hN hm (show (0 : ℝ) < 1 / 2 by norm_num) (by norm_num)
  refine ⟨δ, hδ, fun x hx0 hx1 => ⟨⟨1 / 1024, 0, 10, 0, 20⟩, ?_⟩⟩
  refine (h 1 ⟨zero_le_one, le_rfl⟩ ⟨1 / 1024, 0, 10, 0, 20⟩ _ x 0 10 ?_ ?_ (Nat.zero_le _) le_rfl (Or.inl (by norm_num))).1
  · intro k hk
    rw [List.mem_singleton] at hk
    subst hk
    exact hx0
  · refine (pi_norm_le_iff_of_nonneg hδ.le).2 fun k => ?_
    fin_cases k
    · simpa [exu, hx0] using hδ.le
    · simpa [exu] using hx1

/-- Existence, without knowing the branch. -/
example : ∃ η > 0, ∃ u : ℝ → Elim.Vec 2, u 3 = exu 3 ∧ Branch [0] exR exJ exg (Icc (3 - η) (3 + η)) u :=
  C83_branch (fun k hk => (ex_branch 3).boundary 3 ⟨by norm_num, le_rfl⟩ k hk) ((ex_branch 3).balance 3 ⟨by norm_num, le_rfl⟩)
    (Eventually.of_forall fun p => ex_smooth p.1 p.2)
    (Eventually.of_forall fun p => (continuous_pi fun k => continuous_pi fun m => by fin_cases k <;> fin_cases m <;> simp only [exJ] <;> fun_prop : Continuous fun p : ℝ × Elim.Vec 2 => exJ p.1 p.2).continuousAt)
    (Eventually.of_forall fun _ => continuousAt_const) (continuous_pi fun k => by fin_cases k; exacts [continuous_id, continuous_const])
    ((ex_branch 3).regular 3 ⟨by norm_num, le_rfl⟩)

end Serac.C83
