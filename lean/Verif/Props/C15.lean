import Verif.Model.ScalarSolver
import Mathlib.Topology.Order.IntermediateValue
import Mathlib.Analysis.Calculus.FDeriv.Prod
import Mathlib.Analysis.Calculus.Deriv.Comp
import Mathlib.Analysis.Calculus.Deriv.Prod
import Mathlib.Analysis.Calculus.Deriv.Pow
import Mathlib.Tactic.Linarith
import Mathlib.Tactic.FieldSimp
/-!
# C15: the bracketed scalar solver keeps its guarantees

Nothing is assumed about `f` and `f'` (not even that `f'` is the derivative of `f`).

The code violates the full claim in one corner: at a point with `f = 0` and `df_dx = 0` exactly the Newton branch is chosen and divides
zero by zero (`C15_stationary_root`).  The other theorems cover every run in which that does not happen.
-/

noncomputable section
namespace Serac.C15
open Serac.ScalarSolver Set

variable {f f' : ℝ → ℝ} {opt : Options}

/-- States visited by the loop, in order. -/
inductive Visits (f f' : ℝ → ℝ) (opt : Options) (s0 : St) : St → Prop where
  | start : Visits f f' opt s0 s0
  | step {s s'} : Visits f f' opt s0 s → s.converged = false → s.iterations < opt.maxIter → body f f' opt s = some s' →
      Visits f f' opt s0 s'

/-- What is claimed of every visited state: the iterate and the bracket lie in the search interval, and the bracket has a sign change. -/
structure Ok (f f' : ℝ → ℝ) (lo hi : ℝ) (s : St) : Prop where
  x_mem : s.x ∈ uIcc s.xl s.xh
  xl_mem : s.xl ∈ uIcc lo hi
  xh_mem : s.xh ∈ uIcc lo hi
  neg : f s.xl < 0
  nonneg : 0 ≤ f s.xh
  fval : s.fval = f s.x
  dfdx : s.dfdx = f' s.x

private theorem newton_mem {x xl xh d v : ℝ} (hd : d ≠ 0) (h1 : (x - xh) * d - v ≤ 0) (h2 : 0 ≤ (x - xl) * d - v) :
    x - v / d ∈ uIcc xl xh := by
  rw [mem_uIcc]
  rcases lt_or_gt_of_ne hd with h | h
  · right
    constructor
    · have : v / d ≤ x - xh := by rw [div_le_iff_of_neg h]; linarith
      linarith
    · have : x - xl ≤ v / d := by rw [le_div_iff_of_neg h]; linarith
      linarith
  · left
    constructor
    · have : v / d ≤ x - xl := by rw [div_le_iff₀ h]; linarith
      linarith
    · have : x - xh ≤ v / d := by rw [le_div_iff₀ h]; linarith
      linarith

private theorem mid_mem (xl xh : ℝ) : xl + 1 / 2 * (xh - xl) ∈ uIcc xl xh := by
  rw [mem_uIcc]
  rcases le_total xl xh with h | h
  · left; constructor <;> linarith
  · right; constructor <;> linarith

private theorem finish_ok {lo hi : ℝ} {s : St} (hs : Ok f f' lo hi s) (dx x : ℝ) (m : Bool) (hx : x ∈ uIcc s.xl s.xh) :
    Ok f f' lo hi (finish f f' opt s dx x m) ∧
      uIcc (finish f f' opt s dx x m).xl (finish f f' opt s dx x m).xh ⊆ uIcc s.xl s.xh := by
  have hsub : uIcc s.xl s.xh ⊆ uIcc lo hi := uIcc_subset_uIcc hs.xl_mem hs.xh_mem
  by_cases h : f x < 0
  · refine ⟨⟨?_, ?_, ?_, ?_, ?_, rfl, rfl⟩, ?_⟩ <;> simp only [finish, if_pos h]
    · exact left_mem_uIcc
    · exact hsub hx
    · exact hs.xh_mem
    · exact h
    · exact hs.nonneg
    · exact uIcc_subset_uIcc hx right_mem_uIcc
  · refine ⟨⟨?_, ?_, ?_, ?_, ?_, rfl, rfl⟩, ?_⟩ <;> simp only [finish, if_neg h]
    · exact right_mem_uIcc
    · exact hs.xl_mem
    · exact hsub hx
    · exact hs.neg
    · exact not_lt.mp h
    · exact uIcc_subset_uIcc left_mem_uIcc hx

private theorem body_ok {lo hi : ℝ} {s s' : St} (hs : Ok f f' lo hi s) (hb : body f f' opt s = some s') :
    Ok f f' lo hi s' ∧ uIcc s'.xl s'.xh ⊆ uIcc s.xl s.xh ∧ s'.iterations = s.iterations + 1 ∧
      (s'.converged = true → |s'.deltaX| < opt.xtol ∨ |f s'.x| < opt.rtol ∨ f s'.x = 0) := by
  unfold body at hb
  have hne : s.xl ≠ s.xh := fun e => by have h1 := hs.neg; have h2 := hs.nonneg; rw [e] at h1; linarith
  split at hb
  · cases hb
    refine ⟨(finish_ok hs _ _ _ (mid_mem _ _)).1, (finish_ok hs _ _ _ (mid_mem _ _)).2, rfl, fun hc => ?_⟩
    simp only [finish, Bool.or_eq_true, decide_eq_true_eq] at hc
    rcases hc with (hc | hc) | hc
    · exfalso; apply hne; linarith
    · exact Or.inl hc
    · exact Or.inr (Or.inl hc)
  · rename_i hub
    split at hb
    · cases hb
    · rename_i hd
      cases hb
      simp only [useBisection, not_or, not_lt, gt_iff_lt] at hub
      have hx := newton_mem hd hub.1 hub.2.1
      refine ⟨(finish_ok hs _ _ _ hx).1, (finish_ok hs _ _ _ hx).2, rfl, fun hc => ?_⟩
      simp only [finish, Bool.or_eq_true, decide_eq_true_eq] at hc
      rcases hc with (hc | hc) | hc
      · right; right
        have h0 : s.fval / s.dfdx = 0 := by linarith
        have : s.fval = 0 := by
          rcases div_eq_zero_iff.mp h0 with h | h
          · exact h
          · exact absurd h hd
        show f (s.x - s.fval / s.dfdx) = 0
        rw [h0, sub_zero, ← hs.fval, this]
      · exact Or.inl hc
      · exact Or.inr (Or.inl hc)

private theorem start_ok (x0 lo hi : ℝ) (hprod : ¬ f lo * f hi > 0) (hl : f lo ≠ 0) (hh : f hi ≠ 0) :
    Ok f f' lo hi (start f f' x0 lo hi) ∧ uIcc (start f f' x0 lo hi).xl (start f f' x0 lo hi).xh = uIcc lo hi := by
  have hx : (if x0 < lo ∨ x0 > hi then 1 / 2 * (lo + hi) else x0) ∈ uIcc lo hi := by
    split
    · have := mid_mem lo hi
      have e : lo + 1 / 2 * (hi - lo) = 1 / 2 * (lo + hi) := by ring
      rwa [e] at this
    · rename_i h
      simp only [not_or, not_lt, gt_iff_lt] at h
      exact mem_uIcc.mpr (Or.inl h)
  by_cases h : f lo > 0
  · have hneg : f hi < 0 := by
      rcases lt_or_gt_of_ne hh with h' | h'
      · exact h'
      · exact absurd (mul_pos h h') hprod
    refine ⟨⟨?_, ?_, ?_, ?_, ?_, rfl, rfl⟩, ?_⟩ <;> simp only [start, if_pos h]
    · rw [uIcc_comm]; exact hx
    · exact right_mem_uIcc
    · exact left_mem_uIcc
    · exact hneg
    · exact h.le
    · exact uIcc_comm _ _
  · have hneg : f lo < 0 := lt_of_le_of_ne (not_lt.mp h) hl
    have hpos : 0 ≤ f hi := by
      by_contra h'
      exact hprod (mul_pos_of_neg_of_neg hneg (not_le.mp h'))
    refine ⟨⟨?_, ?_, ?_, ?_, ?_, rfl, rfl⟩, ?_⟩ <;> simp only [start, if_neg h]
    · exact hx
    · exact left_mem_uIcc
    · exact right_mem_uIcc
    · exact hneg
    · exact hpos

/-- **C15, bracket error.**  The error is reported exactly when both ends have the same strict sign. -/
theorem C15_not_bracketed (x0 lo hi : ℝ) :
    solve f f' opt x0 lo hi = .notBracketed ↔ (0 < f lo ∧ 0 < f hi) ∨ (f lo < 0 ∧ f hi < 0) := by
  have hm : f lo * f hi > 0 ↔ (0 < f lo ∧ 0 < f hi) ∨ (f lo < 0 ∧ f hi < 0) := mul_pos_iff
  rw [← hm]
  unfold solve
  constructor
  · intro h
    by_contra hn
    rw [if_neg hn] at h
    split at h
    · cases h
    · split at h
      · cases h
      · split at h <;> cases h
  · intro h; rw [if_pos h]

/-- **C15, every iterate (partial: runs without a division by zero visit all their states).**  For a bracketing interval whose ends are not
roots, at every visited state the iterate lies in the current bracket, the bracket lies in the search interval and `f` changes sign
between its ends. -/
theorem C15_iterates_partial (x0 lo hi : ℝ) (hprod : ¬ f lo * f hi > 0) (hl : f lo ≠ 0) (hh : f hi ≠ 0) (s : St)
    (hs : Visits f f' opt (start f f' x0 lo hi) s) : Ok f f' lo hi s ∧ s.iterations ≤ opt.maxIter := by
  induction hs with
  | start => exact ⟨(start_ok x0 lo hi hprod hl hh).1, Nat.zero_le _⟩
  | step h hc hi' hb ih =>
    have := body_ok ih.1 hb
    exact ⟨this.1, by rw [this.2.2.1]; exact hi'⟩

/-- **C15, the bracket only shrinks.** -/
theorem C15_shrinks_partial (x0 lo hi : ℝ) (hprod : ¬ f lo * f hi > 0) (hl : f lo ≠ 0) (hh : f hi ≠ 0) (s s' : St)
    (hs : Visits f f' opt (start f f' x0 lo hi) s) (hs' : Visits f f' opt s s') :
    uIcc s'.xl s'.xh ⊆ uIcc s.xl s.xh := by
  have hs0 := (C15_iterates_partial x0 lo hi hprod hl hh s hs).1
  have key : Ok f f' lo hi s' ∧ uIcc s'.xl s'.xh ⊆ uIcc s.xl s.xh := by
    induction hs' with
    | start => exact ⟨hs0, subset_rfl⟩
    | step h hc hi' hb ih =>
      have := body_ok ih.1 hb
      exact ⟨this.1, this.2.1.trans ih.2⟩
  exact key.2

private theorem loop_visits (s0 : St) (k : ℕ) (s s' : St) (hk : s.iterations + k = opt.maxIter) (hv : Visits f f' opt s0 s)
    (hok : ∃ lo hi, Ok f f' lo hi s)
    (hconv : s.converged = true → |s.deltaX| < opt.xtol ∨ |f s.x| < opt.rtol ∨ f s.x = 0)
    (h : loop f f' opt k s = some s') :
    Visits f f' opt s0 s' ∧ (s'.converged = false → s'.iterations = opt.maxIter) ∧
      (s'.converged = true → |s'.deltaX| < opt.xtol ∨ |f s'.x| < opt.rtol ∨ f s'.x = 0) := by
  induction k generalizing s with
  | zero => cases h; exact ⟨hv, fun _ => by omega, hconv⟩
  | succ k ih =>
    rw [loop] at h
    split at h
    · rename_i hc; cases h; exact ⟨hv, fun h' => by (rw [hc] at h'; cases h'), hconv⟩
    · rename_i hc
      obtain ⟨s1, hb, h2⟩ := Option.bind_eq_some_iff.mp h
      obtain ⟨lo, hi, ho⟩ := hok
      have hbo := body_ok ho hb
      have hc' : s.converged = false := by simpa using hc
      exact ih s1 (by rw [hbo.2.2.1]; omega) (.step hv hc' (by omega) hb) ⟨lo, hi, hbo.1⟩ hbo.2.2.2 h2

/-- **C15, result (partial).**  Whenever the solver returns, the root estimate lies in the search interval, the iteration count is within
the budget, the reported residual and derivative are those at the returned point, and: if it reports convergence, the last step was below
`xtol`, or the residual is below `rtol`, or the returned point is an exact root; if not, the budget was used up. -/
theorem C15_result_partial (x0 lo hi : ℝ) (r : Result) (h : solve f f' opt x0 lo hi = .ok r) :
    r.x ∈ uIcc lo hi ∧ r.iterations ≤ opt.maxIter ∧ r.residual = f r.x ∧ r.dfdx = f' r.x ∧
      (r.converged = false → r.iterations = opt.maxIter) ∧
      (r.converged = true → f r.x = 0 ∨ |f r.x| < opt.rtol ∨
        ∃ s, Visits f f' opt (start f f' x0 lo hi) s ∧ s.x = r.x ∧ |s.deltaX| < opt.xtol) := by
  unfold solve at h
  split at h
  · cases h
  rename_i hprod
  split at h
  · rename_i h0; cases h
    exact ⟨left_mem_uIcc, Nat.zero_le _, rfl, rfl, by simp, fun _ => Or.inl h0⟩
  rename_i hl
  split at h
  · rename_i h0; cases h
    exact ⟨right_mem_uIcc, Nat.zero_le _, rfl, rfl, by simp, fun _ => Or.inl h0⟩
  rename_i hh
  split at h
  · cases h
  rename_i s hs
  cases h
  obtain ⟨hv, hnc, hc⟩ := loop_visits (start f f' x0 lo hi) opt.maxIter _ s (by simp [start]) .start
    ⟨lo, hi, (start_ok x0 lo hi hprod hl hh).1⟩ (by simp [start]) hs
  obtain ⟨ho, hit⟩ := C15_iterates_partial x0 lo hi hprod hl hh s hv
  refine ⟨uIcc_subset_uIcc ho.xl_mem ho.xh_mem ho.x_mem, hit, rfl, ho.dfdx, hnc, fun hcv => ?_⟩
  rcases hc hcv with h | h | h
  · exact Or.inr (Or.inr ⟨s, hv, rfl, h⟩)
  · exact Or.inr (Or.inl h)
  · exact Or.inl h

/-- **C15, a root is really enclosed.**  For a continuous function every visited bracket contains an exact root. -/
theorem C15_root_enclosed (x0 lo hi : ℝ) (hprod : ¬ f lo * f hi > 0) (hl : f lo ≠ 0) (hh : f hi ≠ 0) (hf : Continuous f) (s : St)
    (hs : Visits f f' opt (start f f' x0 lo hi) s) : ∃ z ∈ uIcc s.xl s.xh, f z = 0 := by
  obtain ⟨ho, -⟩ := C15_iterates_partial x0 lo hi hprod hl hh s hs
  have := intermediate_value_uIcc (a := s.xl) (b := s.xh) (f := f) hf.continuousOn
  have h0 : (0 : ℝ) ∈ uIcc (f s.xl) (f s.xh) := mem_uIcc.mpr (Or.inl ⟨ho.neg.le, ho.nonneg⟩)
  obtain ⟨z, hz, e⟩ := this h0
  exact ⟨z, hz, e⟩

/-- **C15, when the run is undefined.**  The solver divides by zero only after reaching an exact root with zero derivative: no other input
makes it fail, and it then had the root in hand. -/
theorem C15_undefined_only (x0 lo hi : ℝ) (h : solve f f' opt x0 lo hi = .undefined) :
    ∃ s, Visits f f' opt (start f f' x0 lo hi) s ∧ f s.x = 0 ∧ f' s.x = 0 ∧ s.x ∈ uIcc lo hi := by
  unfold solve at h
  split at h
  · cases h
  rename_i hprod
  split at h
  · cases h
  rename_i hl
  split at h
  · cases h
  rename_i hh
  split at h
  swap
  · cases h
  rename_i hs
  have key : ∀ k s, s.iterations + k = opt.maxIter → Visits f f' opt (start f f' x0 lo hi) s → loop f f' opt k s = none →
      ∃ s, Visits f f' opt (start f f' x0 lo hi) s ∧ f s.x = 0 ∧ f' s.x = 0 ∧ s.x ∈ uIcc lo hi := by
    intro k
    induction k with
    | zero => intro s _ _ h; cases h
    | succ k ih =>
      intro s hk hv h
      rw [loop] at h
      split at h
      · cases h
      rename_i hc
      have ho := (C15_iterates_partial x0 lo hi hprod hl hh s hv).1
      cases hb : body f f' opt s with
      | some s1 =>
        rw [hb] at h
        exact ih s1 (by rw [(body_ok ho hb).2.2.1]; omega) (.step hv (by simpa using hc) (by omega) hb) h
      | none =>
        refine ⟨s, hv, ?_⟩
        unfold body at hb
        split at hb
        · cases hb
        · rename_i hub
          split at hb
          · rename_i hd
            simp only [useBisection, not_or, not_lt, gt_iff_lt, hd, mul_zero, zero_sub, abs_zero] at hub
            refine ⟨?_, by rw [← ho.dfdx, hd], uIcc_subset_uIcc ho.xl_mem ho.xh_mem ho.x_mem⟩
            rw [← ho.fval]; linarith [hub.1, hub.2.1]
          · cases hb
  exact key opt.maxIter _ (by simp [start]) .start hs

/-- **C15, refuted corner.**  If the initial guess is an exact root with zero derivative (strictly inside a bracketing interval), the solver
divides zero by zero, for every option set that allows an iteration. -/
theorem C15_stationary_root (x0 lo hi : ℝ) (hprod : f lo * f hi < 0) (hx : lo ≤ x0 ∧ x0 ≤ hi) (h0 : f x0 = 0) (h1 : f' x0 = 0)
    (hm : 0 < opt.maxIter) : solve f f' opt x0 lo hi = .undefined := by
  have hl : f lo ≠ 0 := fun h => by rw [h, zero_mul] at hprod; exact lt_irrefl _ hprod
  have hh : f hi ≠ 0 := fun h => by rw [h, mul_zero] at hprod; exact lt_irrefl _ hprod
  unfold solve
  rw [if_neg (not_lt.mpr hprod.le), if_neg hl, if_neg hh]
  obtain ⟨k, hk⟩ := Nat.exists_eq_succ_of_ne_zero hm.ne'
  have hx' : ¬ (x0 < lo ∨ x0 > hi) := by rintro (h | h) <;> linarith [hx.1, hx.2]
  have hb : body f f' opt (start f f' x0 lo hi) = none := by
    unfold body
    rw [if_neg, if_pos]
    · simp only [start, if_neg hx', h1]
    · simp [useBisection, start, if_neg hx', h0, h1]
  rw [hk, loop, hb]
  simp [start]

/-- **C15, derivative of the root.**  Let `F(x, t)` be differentiable at the returned point, with `df_dx` the partial derivative in `x`
(non-zero) and `df` the partial derivative in the parameter direction.  For any differentiable curve of roots through the returned point
the reported derivative is the derivative of the curve. -/
theorem C15_root_gradient (F : ℝ × ℝ → ℝ) (r : Result) (t df : ℝ) (X : ℝ → ℝ) (X' : ℝ)
    (hF : HasFDerivAt F (r.dfdx • ContinuousLinearMap.fst ℝ ℝ ℝ + df • ContinuousLinearMap.snd ℝ ℝ ℝ) (r.x, t)) (hd : r.dfdx ≠ 0)
    (hX : HasDerivAt X X' t) (hXt : X t = r.x) (hroot : ∀ᶠ s in nhds t, F (X s, s) = 0) : X' = rootGradient r df := by
  have hpair : HasDerivAt (fun s => (X s, s)) (X', 1) t := hX.prodMk (hasDerivAt_id t)
  rw [← hXt] at hF
  have hF' : HasFDerivAt F _ ((fun s => (X s, s)) t) := hF
  have hcomp := HasFDerivAt.comp_hasDerivAt (f := fun s => (X s, s)) t hF' hpair
  have hzero : HasDerivAt (fun s => F (X s, s)) 0 t := by
    refine (hasDerivAt_const t (0 : ℝ)).congr_of_eventuallyEq ?_
    filter_upwards [hroot] with s hs using hs
  have := hcomp.unique hzero
  simp at this
  rw [rootGradient]
  field_simp
  linarith

/-! ### Examples -/

/-- The refuted corner is met by `f(x) = x³` on `[-1, 1]` started at 0. -/
example : solve (fun x => x ^ 3) (fun x => 3 * x ^ 2) ⟨1e-8, 0, 25⟩ 0 (-1) 1 = .undefined :=
  C15_stationary_root 0 (-1) 1 (by norm_num) (by norm_num) (by norm_num) (by norm_num) (by norm_num)

/-- A run that returns: `f(x) = x` on `[-1, 2]` started at 1; one Newton step reaches the root. -/
example : ∃ r, solve (fun x => x) (fun _ => 1) ⟨1e-8, 1e-8, 1⟩ 1 (-1) 2 = .ok r ∧ r.x = 0 ∧ r.converged = true := by
  refine ⟨⟨0, 1, true, 1, 0⟩, ?_, rfl, rfl⟩
  have hs : (start (fun x => x) (fun _ => 1) 1 (-1) 2) = ⟨1, -1, 2, 3, 3, 1, 1, 0, false⟩ := by
    simp [start]; norm_num
  have hb : body (fun x => x) (fun _ => 1) ⟨1e-8, 1e-8, 1⟩ ⟨1, -1, 2, 3, 3, 1, 1, 0, false⟩ =
      some ⟨0, -1, 0, 3, 1, 0, 1, 1, true⟩ := by
    unfold body
    rw [if_neg, if_neg]
    · norm_num [finish]
    · norm_num
    · simp only [useBisection]; norm_num [abs_of_pos]
  unfold solve
  rw [if_neg (by norm_num), if_neg (by norm_num), if_neg (by norm_num), hs, loop, hb]
  simp [loop]

end Serac.C15
