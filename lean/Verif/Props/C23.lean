import Verif.Model.Newton
import Mathlib.Tactic.Linarith
import Mathlib.Tactic.Ring
import Mathlib.Tactic.Positivity
/-!
# C23: the Newton solver terminates and reports truthfully

Spec.  The residual may throw or have a NaN or infinite norm; the correction is arbitrary.  The list of evaluations is part of the model
state so that "evaluated" can be stated.

Violations found: a NaN residual norm returns without touching `converged`, `final_iter`, `final_norm`, so the report of the *previous*
call is still there (`C23_nan_report_stale`, `C23_nan_reports_converged_wrong`); a residual that throws at the initial guess sets the
initial norm to `DBL_MAX`, hence the goal to `rel_tol · DBL_MAX`, and the next finite residual counts as converged (`C23_throw_wrong`).
-/

noncomputable section
namespace Serac.C23
open Serac.Newton
open scoped NNReal Classical

variable {X R : Type} [AddCommGroup X] [Module ℝ X]

/-- `x` was evaluated, and `norm`, `r` are the result of that evaluation, which is the latest one. -/
def Evaluated (p : Problem X R) (s : Iter X R) : Prop :=
  (∃ r₀, evaluateNorm p s.x r₀ = (s.norm, s.r)) ∧ ∃ rest, s.trace = (s.x, s.norm) :: rest

omit [AddCommGroup X] [Module ℝ X] in
theorem evalAt_evaluated (p : Problem X R) (x : X) (s : Iter X R) : Evaluated p (evalAt p x s) :=
  ⟨⟨s.r, rfl⟩, ⟨s.trace, rfl⟩⟩

omit [AddCommGroup X] [Module ℝ X] in
theorem evalAt_length (p : Problem X R) (x : X) (s : Iter X R) : (evalAt p x s).trace.length = s.trace.length + 1 := rfl

theorem backtrack_spec (p : Problem X R) (x0 c : X) (sgn : ℝ) (prev : Num) (rem : ℕ) (h : ℝ) (s : Iter X R) (hs : Evaluated p s)
    (k : ℕ) (hk : h = (1 / 2) ^ k) (hx : ∃ j ≤ k, s.x = x0 + (sgn * (1 / 2) ^ j) • c) :
    let b := backtrack p x0 c sgn prev rem h s
    Evaluated p b.1 ∧ b.1.trace.length ≤ s.trace.length + rem ∧
      (b.2.2 = true → b.1.trace.length = s.trace.length + rem ∧ b.2.1 = (1 / 2) ^ (k + rem)) ∧ (b.2.2 = false → b.1.norm.lt prev) ∧
      ∃ j ≤ k + rem, b.1.x = x0 + (sgn * (1 / 2) ^ j) • c := by
  induction rem generalizing h s k with
  | zero => exact ⟨hs, le_rfl, fun _ => ⟨rfl, hk⟩, fun h => by simp [backtrack] at h, hx⟩
  | succ rem ih =>
    by_cases hl : s.norm.lt prev
    · simp only [backtrack, hl, if_true]
      obtain ⟨j, hj, hxj⟩ := hx
      exact ⟨hs, by omega, by simp, fun _ => trivial, ⟨j, by omega, hxj⟩⟩
    · have := ih (h * (1 / 2)) (evalAt p (x0 + (sgn * (h * (1 / 2))) • c) s) (evalAt_evaluated p _ _) (k + 1)
        (by rw [hk, pow_succ]) ⟨k + 1, le_rfl, by rw [hk, ← pow_succ]; rfl⟩
      simp only [backtrack, hl, if_false]
      rw [evalAt_length] at this
      obtain ⟨h1, h2, h3, h4, j, hj, h5⟩ := this
      exact ⟨h1, by omega, fun h => ⟨by have := (h3 h).1; omega, by rw [(h3 h).2]; congr 1; omega⟩, h4, j, by omega, h5⟩

/-- One Newton iteration: the accepted iterate was evaluated; it is `x ± 2⁻ᵏ c`; at most `2·budget + 3` evaluations are made; and either
the residual norm decreased, or the budget is zero, or the whole budget was used. -/
theorem C23_iteration (p : Problem X R) (o : Options) (s : Iter X R) :
    Evaluated p (iterate p o s) ∧
    (iterate p o s).trace.length ≤ s.trace.length + (2 * o.maxLs + 3) ∧
    (o.maxLs = 0 → (iterate p o s).trace.length = s.trace.length + 1) ∧
    ((iterate p o s).norm.lt s.norm ∨ o.maxLs = 0 ∨ (iterate p o s).trace.length = s.trace.length + (2 * o.maxLs + 3)) ∧
    ∃ sgn : ℝ, (sgn = 1 ∨ sgn = -1) ∧ ∃ k ≤ o.maxLs + 1, (iterate p o s).x = s.x + (sgn * (1 / 2) ^ k) • p.correction s.x s.r := by
  have hb1 := backtrack_spec p s.x (p.correction s.x s.r) (-1) s.norm o.maxLs 1 (evalAt p (s.x + ((-1 : ℝ) * 1) • p.correction s.x s.r) s)
    (evalAt_evaluated p _ _) 0 (by simp) ⟨0, le_rfl, by rw [pow_zero]; rfl⟩
  unfold iterate
  dsimp only
  generalize hb : backtrack p s.x (p.correction s.x s.r) (-1) s.norm o.maxLs 1
    (evalAt p (s.x + ((-1 : ℝ) * 1) • p.correction s.x s.r) s) = b1 at hb1 ⊢
  dsimp only at hb1
  rw [evalAt_length] at hb1
  obtain ⟨h1, h2, h3, h4, j, hj, h5⟩ := hb1
  by_cases hc : 0 < o.maxLs ∧ b1.2.2 = true ∧ ¬ b1.1.norm.lt s.norm
  · rw [if_pos hc]
    have hb2 := backtrack_spec p s.x (p.correction s.x s.r) 1 s.norm o.maxLs 1 (evalAt p (s.x + ((1 : ℝ) * 1) • p.correction s.x s.r) b1.1)
      (evalAt_evaluated p _ _) 0 (by simp) ⟨0, le_rfl, by rw [pow_zero]; rfl⟩
    generalize backtrack p s.x (p.correction s.x s.r) 1 s.norm o.maxLs 1
      (evalAt p (s.x + ((1 : ℝ) * 1) • p.correction s.x s.r) b1.1) = b2 at hb2 ⊢
    dsimp only at hb2
    rw [evalAt_length, (h3 hc.2.1).1] at hb2
    obtain ⟨g1, g2, g3, g4, j', hj', g5⟩ := hb2
    by_cases hd : b2.2.2 = true ∧ ¬ b2.1.norm.lt s.norm
    · rw [if_pos hd]
      have hlen : (evalAt p (s.x + ((-1 : ℝ) * (b2.2.1 * (1 / 2))) • p.correction s.x s.r) b2.1).trace.length =
          s.trace.length + (2 * o.maxLs + 3) := by rw [evalAt_length, (g3 hd.1).1]; omega
      refine ⟨evalAt_evaluated p _ _, hlen.le, fun h => by omega, Or.inr (Or.inr hlen), -1, Or.inr rfl, o.maxLs + 1, le_rfl, ?_⟩
      show s.x + _ = _
      rw [(g3 hd.1).2, ← pow_succ, zero_add]
    · rw [if_neg hd]
      refine ⟨g1, by omega, fun h => by omega, Or.inl ?_, 1, Or.inl rfl, j', by omega, g5⟩
      by_cases hf : b2.2.2 = true
      · by_contra hn; exact hd ⟨hf, hn⟩
      · exact g4 (by simpa using hf)
  · rw [if_neg hc]
    refine ⟨h1, by omega, fun h => ?_, ?_, -1, Or.inr rfl, j, by omega, h5⟩
    · have : b1.2.2 = true := by
        have : backtrack p s.x (p.correction s.x s.r) (-1) s.norm o.maxLs 1
          (evalAt p (s.x + ((-1 : ℝ) * 1) • p.correction s.x s.r) s) = b1 := hb
        rw [h] at this
        rw [← this]; rfl
      have := (h3 this).1
      omega
    · by_cases h0 : o.maxLs = 0
      · exact Or.inr (Or.inl h0)
      · left
        by_cases hf : b1.2.2 = true
        · by_contra hn; exact hc ⟨Nat.pos_of_ne_zero h0, hf, hn⟩
        · exact h4 (by simpa using hf)

theorem loop_nan (p : Problem X R) (o : Options) (goal : Num) (rep : Report) (it : ℕ) (s : Iter X R) (hn : s.norm = .nan) :
    loop p o goal rep it s = (s, rep) := by
  rw [loop, hn]

theorem loop_eq (p : Problem X R) (o : Options) (goal : Num) (rep : Report) (it : ℕ) (s : Iter X R) (hn : s.norm ≠ .nan) :
    loop p o goal rep it s =
      if s.norm.le goal ∧ o.minIter ≤ it then (s, { rep with converged := true, finalIter := it, finalNorm := s.norm })
      else if o.maxIter ≤ it then (s, { rep with converged := false, finalIter := it, finalNorm := s.norm })
      else loop p o goal rep (it + 1) (iterate p o s) := by
  rw [loop]
  split
  · rename_i h; exact absurd h hn
  · rfl

/-- What a finished loop guarantees. -/
theorem loop_spec (p : Problem X R) (o : Options) (goal : Num) (rep : Report) (it : ℕ) (hit : it ≤ o.maxIter) (s : Iter X R)
    (hs : Evaluated p s) :
    let q := loop p o goal rep it s
    Evaluated p q.1 ∧ q.1.trace.length ≤ s.trace.length + (o.maxIter - it) * (2 * o.maxLs + 3) ∧ q.2.initialNorm = rep.initialNorm ∧
      ((q.1.norm = .nan ∧ q.2 = rep) ∨
       (q.1.norm ≠ .nan ∧ q.2.finalNorm = q.1.norm ∧ q.2.finalIter ≤ o.maxIter ∧
        (q.2.converged = true ↔ (q.1.norm.le goal ∧ o.minIter ≤ q.2.finalIter)) ∧
        (q.2.converged = false → q.2.finalIter = o.maxIter))) := by
  induction hm : o.maxIter - it generalizing it s with
  | zero =>
    have he : o.maxIter = it := by omega
    by_cases hn : s.norm = .nan
    · rw [loop_nan p o goal rep it s hn]; exact ⟨hs, by simp, rfl, Or.inl ⟨hn, rfl⟩⟩
    · rw [loop_eq p o goal rep it s hn]
      by_cases hc : s.norm.le goal ∧ o.minIter ≤ it
      · rw [if_pos hc]; exact ⟨hs, by simp, rfl, Or.inr ⟨hn, rfl, hit, by simpa using hc, by simp⟩⟩
      · rw [if_neg hc, if_pos he.le]; exact ⟨hs, by simp, rfl, Or.inr ⟨hn, rfl, hit, by simpa using hc, fun _ => he.symm⟩⟩
  | succ k ih =>
    by_cases hn : s.norm = .nan
    · rw [loop_nan p o goal rep it s hn]; exact ⟨hs, by simp, rfl, Or.inl ⟨hn, rfl⟩⟩
    · rw [loop_eq p o goal rep it s hn]
      by_cases hc : s.norm.le goal ∧ o.minIter ≤ it
      · rw [if_pos hc]; exact ⟨hs, by simp, rfl, Or.inr ⟨hn, rfl, hit, by simpa using hc, by simp⟩⟩
      · rw [if_neg hc, if_neg (by omega)]
        obtain ⟨h1, h2, h3, h4⟩ := ih (it + 1) (by omega) (iterate p o s) (C23_iteration p o s).1 (by omega)
        refine ⟨h1, ?_, h3, h4⟩
        have := (C23_iteration p o s).2.1
        rw [Nat.succ_mul]
        omega

theorem le_max_cases (n a b : Num) (h : n.le (Num.max a b)) : n.le a ∨ n.le b := by
  unfold Num.max at h
  split at h
  · exact Or.inr h
  · exact Or.inl h

/-- Termination is by construction (`loop` is total with the measure `max_iter - it`); the work is bounded: at most
`1 + max_iter (2·budget + 3)` residual evaluations per call, whatever the residual does. -/
theorem C23_budget (p : Problem X R) (o : Options) (x : X) (r : R) (rep : Report) :
    (mult p o x r rep).1.trace.length ≤ 1 + o.maxIter * (2 * o.maxLs + 3) := by
  have := (loop_spec p o (Num.max (Num.scale o.relTol (evalAt p x { x, r, norm := .nan, trace := [] }).norm) (.fin o.absTol))
    { rep with initialNorm := (evalAt p x { x, r, norm := .nan, trace := [] }).norm } 0 (Nat.zero_le _)
    (evalAt p x { x, r, norm := .nan, trace := [] }) (evalAt_evaluated p _ _)).2.1
  exact this

/-- The returned iterate is the one evaluated last, and its norm is that evaluation's. -/
theorem C23_accepted_is_evaluated (p : Problem X R) (o : Options) (x : X) (r : R) (rep : Report) :
    Evaluated p (mult p o x r rep).1 :=
  (loop_spec p o _ _ 0 (Nat.zero_le _) (evalAt p x { x, r, norm := .nan, trace := [] }) (evalAt_evaluated p _ _)).1

/-- The report, when the final norm is not NaN: the final norm is the norm at the returned iterate; the iteration count is within budget;
convergence is reported exactly when the tolerance is met after at least the minimal number of iterations; otherwise the whole budget was
used.  The tolerance is relative to the norm at the initial guess. -/
theorem C23_report_partial (p : Problem X R) (o : Options) (x : X) (r : R) (rep : Report)
    (hn : (mult p o x r rep).1.norm ≠ .nan) :
    let q := mult p o x r rep
    q.2.finalNorm = q.1.norm ∧ q.2.finalIter ≤ o.maxIter ∧ q.2.initialNorm = (evaluateNorm p x r).1 ∧
    (q.2.converged = true ↔
      (q.1.norm.le (Num.max (Num.scale o.relTol (evaluateNorm p x r).1) (.fin o.absTol)) ∧ o.minIter ≤ q.2.finalIter)) ∧
    (q.2.converged = true → q.1.norm.le (Num.scale o.relTol (evaluateNorm p x r).1) ∨ q.1.norm.le (.fin o.absTol)) ∧
    (q.2.converged = false → q.2.finalIter = o.maxIter) := by
  have h := loop_spec p o (Num.max (Num.scale o.relTol (evalAt p x { x, r, norm := .nan, trace := [] }).norm) (.fin o.absTol))
    { rep with initialNorm := (evalAt p x { x, r, norm := .nan, trace := [] }).norm } 0 (Nat.zero_le _)
    (evalAt p x { x, r, norm := .nan, trace := [] }) (evalAt_evaluated p _ _)
  obtain ⟨-, -, h3, h4 | ⟨-, h5, h6, h7, h8⟩⟩ := h
  · exact absurd h4.1 hn
  · refine ⟨h5, h6, h3, h7, fun hc => ?_, h8⟩
    exact le_max_cases _ _ _ (h7.1 hc).1

/-- If the solver ends on a NaN norm, the report is the one from before the call, untouched. -/
theorem C23_nan_report_stale (p : Problem X R) (o : Options) (x : X) (r : R) (rep : Report)
    (hn : (mult p o x r rep).1.norm = .nan) :
    (mult p o x r rep).2.converged = rep.converged ∧ (mult p o x r rep).2.finalIter = rep.finalIter ∧
      (mult p o x r rep).2.finalNorm = rep.finalNorm := by
  have h := loop_spec p o (Num.max (Num.scale o.relTol (evalAt p x { x, r, norm := .nan, trace := [] }).norm) (.fin o.absTol))
    { rep with initialNorm := (evalAt p x { x, r, norm := .nan, trace := [] }).norm } 0 (Nat.zero_le _)
    (evalAt p x { x, r, norm := .nan, trace := [] }) (evalAt_evaluated p _ _)
  obtain ⟨-, -, -, h4 | h4⟩ := h
  · unfold mult
    dsimp only
    rw [h4.2]
    exact ⟨rfl, rfl, rfl⟩
  · exact absurd hn h4.1

/-- So a call whose residual is NaN at the initial guess reports success if the call before it did: the catalogue claim "the report is not
left over from an earlier call" is false. -/
theorem C23_nan_reports_converged_wrong (p : Problem X R) (o : Options) (x : X) (r : R) (rep : Report) (hrep : rep.converged = true)
    (hnan : (evaluateNorm p x r).1 = .nan) : (mult p o x r rep).2.converged = true ∧ (mult p o x r rep).1.norm = .nan := by
  have hm : mult p o x r rep =
      (evalAt p x { x, r, norm := .nan, trace := [] }, { rep with initialNorm := (evaluateNorm p x r).1 }) := by
    unfold mult
    dsimp only
    rw [loop]
    have : (evalAt p x { x, r, norm := .nan, trace := [] } : Iter X R).norm = .nan := hnan
    rw [this]
    show (_, _) = _
    rw [hnan]
  rw [hm]
  exact ⟨hrep, hnan⟩

theorem dblMax_pos : 0 < dblMax := by unfold dblMax; positivity

/-- If the residual throws at the initial guess, then any next iterate whose norm is at most `rel_tol · DBL_MAX` (about `1.8e308 rel_tol`)
is reported converged, however large its residual is compared with either tolerance (stated for no line search; `it = 1`). -/
theorem C23_throw_wrong (p : Problem X R) (o : Options) (x : X) (r r' : R) (rep : Report) (v : ℝ)
    (hthrow : p.oper x r = .threw r') (habs : (o.absTol : ℝ) < o.relTol * dblMax) (hrel : o.relTol < 1) (hmin : o.minIter ≤ 1) (hmax : 1 ≤ o.maxIter)
    (hls : o.maxLs = 0)
    (hv : (evaluateNorm p (x + ((-1 : ℝ) * 1) • p.correction x r') r').1 = .fin v) (hle : v ≤ o.relTol * dblMax) :
    (mult p o x r rep).2.converged = true ∧ (mult p o x r rep).2.finalNorm = .fin v := by
  set s0 : Iter X R := evalAt p x { x, r, norm := .nan, trace := [] } with hs0
  have e0 : evaluateNorm p x r = (.fin dblMax, r') := by unfold evaluateNorm; rw [hthrow]
  have n0 : s0.norm = .fin dblMax := by rw [hs0]; show (evaluateNorm p x r).1 = _; rw [e0]
  have r0 : s0.r = r' := by rw [hs0]; show (evaluateNorm p x r).2 = _; rw [e0]
  have x0 : s0.x = x := rfl
  have hgoal : Num.max (Num.scale o.relTol s0.norm) (.fin o.absTol) = .fin (o.relTol * dblMax) := by
    rw [n0, Num.scale, Num.max, if_neg]
    exact not_lt.2 habs.le
  have hit : (iterate p o s0) = evalAt p (x + ((-1 : ℝ) * 1) • p.correction x r') s0 := by
    unfold iterate
    dsimp only
    rw [if_neg (by rw [hls]; simp), hls, backtrack, x0, r0]
  have n1 : (iterate p o s0).norm = .fin v := by
    rw [hit]; show (evaluateNorm p _ s0.r).1 = _; rw [r0]; exact hv
  have hmult : mult p o x r rep = loop p o (.fin (o.relTol * dblMax)) { rep with initialNorm := s0.norm } 0 s0 := by
    unfold mult; dsimp only; rw [← hs0, hgoal]
  have h1 : ∀ (rp : Report), loop p o (.fin (o.relTol * dblMax)) rp 1 (iterate p o s0) =
      (iterate p o s0, { rp with converged := true, finalIter := 1, finalNorm := (iterate p o s0).norm }) := by
    intro rp
    rw [loop]
    rw [n1]
    dsimp only
    rw [if_pos ⟨hle, hmin⟩]
  rw [hmult, loop, n0]
  dsimp only
  by_cases hc : (Num.fin dblMax).le (.fin (o.relTol * dblMax)) ∧ o.minIter ≤ 0
  · exfalso
    have h : dblMax ≤ o.relTol * dblMax := hc.1
    have h2 : (o.relTol : ℝ) * dblMax < 1 * dblMax := mul_lt_mul_of_pos_right (by exact_mod_cast hrel) dblMax_pos
    linarith
  · rw [if_neg hc, if_neg (by omega), h1]
    exact ⟨rfl, n1⟩

/-! ## Non-vacuity: the scalar problem `r(x) = x` with the correction that halves the error -/

def exP : Problem ℝ ℝ := { oper := fun x _ => .ok x, norm := fun r => .fin |r|, correction := fun x _ => x }
def exO : Options := { relTol := 0, absTol := 1, maxIter := 5, minIter := 0, maxLs := 2 }

/-- One full step reaches zero; convergence is reported with one iteration. -/
example : (mult exP exO 8 0 ⟨.nan, false, 0, .nan⟩).1.norm ≠ .nan := by
  intro h
  obtain ⟨⟨r₀, hr⟩, -⟩ := C23_accepted_is_evaluated exP exO 8 0 ⟨.nan, false, 0, .nan⟩
  rw [h] at hr
  simp [evaluateNorm, exP] at hr

/-- A residual that is NaN everywhere meets the hypothesis of the stale-report theorem. -/
example : (evaluateNorm ({ oper := fun x _ => .ok x, norm := fun _ => .nan, correction := fun x _ => x } : Problem ℝ ℝ) 1 0).1 = .nan := rfl

/-- A residual that throws at 0 and is 10¹⁰ elsewhere satisfies the hypotheses of `C23_throw_wrong` with tolerances 10⁻⁸. -/
example : (10 : ℝ) ^ 10 ≤ (10 : ℝ)⁻¹ ^ 8 * dblMax ∧ (10 : ℝ)⁻¹ ^ 8 < (10 : ℝ)⁻¹ ^ 8 * dblMax := by
  have h : (2 : ℝ) ^ 100 ≤ dblMax := by
    unfold dblMax
    have h1 : (1 : ℝ) ≤ 2 - 2⁻¹ ^ 52 := by norm_num
    calc (2 : ℝ) ^ 100 ≤ 2 ^ 1023 := pow_le_pow_right₀ (by norm_num) (by norm_num)
      _ = 1 * 2 ^ 1023 := (one_mul _).symm
      _ ≤ _ := mul_le_mul_of_nonneg_right h1 (by positivity)
  constructor
  · calc (10 : ℝ) ^ 10 ≤ (10 : ℝ)⁻¹ ^ 8 * 2 ^ 100 := by norm_num
      _ ≤ _ := mul_le_mul_of_nonneg_left h (by positivity)
  · calc (10 : ℝ)⁻¹ ^ 8 < (10 : ℝ)⁻¹ ^ 8 * 2 ^ 100 := by norm_num
      _ ≤ _ := mul_le_mul_of_nonneg_left h (by positivity)

end Serac.C23
