import Verif.Model.Driver
import Mathlib.Tactic.Ring
import Mathlib.Tactic.Linarith
import Mathlib.Tactic.NormNum
import Mathlib.Tactic.FieldSimp
import Mathlib.Algebra.BigOperators.Group.List.Basic
import Mathlib.Algebra.Order.Archimedean.Real.Basic
import Mathlib.Algebra.Order.Floor.Semiring
import Mathlib.Algebra.Order.Floor.Ring
/-!
# C36: the driver's time loop

Spec.  A run from `t₀` to `tf > t₀` with step `dt > 0` takes `max 1 ⌈(tf - t₀)/dt - 10⁻⁸⌉` steps, all of size `dt` except the last one, which is
`min dt (rest)`.

Exact arithmetic in `C36_run_partial`; `C36_stuck_wrong` shows what rounding can do.
-/

noncomputable section
namespace Serac.C36
open Serac.Driver

/-- Number of steps. -/
def numSteps (dt tf t : ℝ) : ℕ := max 1 ⌈(tf - t) / dt - 1 / 10 ^ 8⌉₊

/-- Sizes of the steps. -/
def sizes (dt tf t : ℝ) : List ℝ :=
  List.replicate (numSteps dt tf t - 1) dt ++ [min dt (tf - (t + (numSteps dt tf t - 1 : ℕ) * dt))]

theorem last_id (dt tf t : ℝ) : last id dt tf t ↔ tf - t ≤ 1 / 10 ^ 8 * dt := by
  unfold last
  simp only [id]
  constructor <;> intro h <;> linarith

theorem numSteps_one (dt tf t : ℝ) (hdt : 0 < dt) (h : tf - t ≤ (1 + 1 / 10 ^ 8) * dt) : numSteps dt tf t = 1 := by
  unfold numSteps
  apply max_eq_left
  rw [Nat.ceil_le]
  have : (tf - t) / dt ≤ 1 + 1 / 10 ^ 8 := by rw [div_le_iff₀ hdt]; exact h
  push_cast
  linarith

theorem numSteps_succ (dt tf t : ℝ) (hdt : 0 < dt) (h : (1 + 1 / 10 ^ 8) * dt < tf - t) :
    numSteps dt tf t = numSteps dt tf (t + dt) + 1 := by
  unfold numSteps
  have h1 : (1 : ℝ) + 1 / 10 ^ 8 < (tf - t) / dt := by rw [lt_div_iff₀ hdt]; exact h
  have e : (tf - (t + dt)) / dt - 1 / 10 ^ 8 = ((tf - t) / dt - 1 / 10 ^ 8) - 1 := by
    field_simp
    ring
  rw [e]
  set x := (tf - t) / dt - 1 / 10 ^ 8 with hx
  have hx1 : 1 < x := by linarith
  have e2 : ⌈x⌉₊ = ⌈x - 1⌉₊ + 1 := by
    conv_lhs => rw [show x = (x - 1) + 1 by ring]
    exact Nat.ceil_add_one (by linarith)
  have hpos : 1 ≤ ⌈x - 1⌉₊ := Nat.one_le_iff_ne_zero.2 fun h0 => by
    rw [Nat.ceil_eq_zero] at h0
    linarith
  rw [e2]
  omega

theorem sizes_one (dt tf t : ℝ) (hdt : 0 < dt) (h : tf - t ≤ (1 + 1 / 10 ^ 8) * dt) : sizes dt tf t = [min dt (tf - t)] := by
  unfold sizes
  rw [numSteps_one dt tf t hdt h]
  simp

theorem sizes_succ (dt tf t : ℝ) (hdt : 0 < dt) (h : (1 + 1 / 10 ^ 8) * dt < tf - t) : sizes dt tf t = dt :: sizes dt tf (t + dt) := by
  unfold sizes
  rw [numSteps_succ dt tf t hdt h]
  have h1 : 1 ≤ numSteps dt tf (t + dt) := le_max_left _ _
  obtain ⟨m, hm⟩ : ∃ m, numSteps dt tf (t + dt) = m + 1 := ⟨_, (Nat.sub_add_cancel h1).symm⟩
  rw [hm, Nat.add_sub_cancel, Nat.add_sub_cancel, List.replicate_succ, List.cons_append]
  congr 4
  push_cast
  ring

/-- **C36** (partial: exact arithmetic).  The loop ends after exactly `numSteps` passes; it has then taken exactly the steps of the spec, the cycle
has grown by their number and the time by their sum. -/
theorem C36_run_partial (dt tf : ℝ) (hdt : 0 < dt) (s : State) (h : s.t < tf) (fuel : ℕ) :
    loop id dt tf fuel s = if numSteps dt tf s.t ≤ fuel then
      some { t := s.t + (sizes dt tf s.t).sum, cycle := s.cycle + numSteps dt tf s.t, steps := s.steps ++ sizes dt tf s.t } else none := by
  induction fuel generalizing s with
  | zero =>
    have : 1 ≤ numSteps dt tf s.t := le_max_left _ _
    rw [loop, if_neg (by omega)]
  | succ fuel ih =>
    rw [loop]
    rw [last_id]
    by_cases hc : tf - s.t ≤ (1 + 1 / 10 ^ 8) * dt
    · rw [numSteps_one dt tf s.t hdt hc, sizes_one dt tf s.t hdt hc, if_pos, if_pos (by omega)]
      · simp [body]
      · simp only [body, id]
        rcases le_total dt (tf - s.t) with h1 | h1
        · rw [min_eq_left h1]
          linarith
        · rw [min_eq_right h1]
          have : (0 : ℝ) ≤ 1 / 10 ^ 8 * dt := by positivity
          linarith
    · push Not at hc
      have hlt : dt ≤ tf - s.t := by
        have : (0 : ℝ) ≤ 1 / 10 ^ 8 * dt := by positivity
        linarith
      have hb : body id dt tf s = { t := s.t + dt, cycle := s.cycle + 1, steps := s.steps ++ [dt] } := by
        simp [body, min_eq_left hlt]
      rw [hb]
      dsimp only
      have : (0 : ℝ) < 1 / 10 ^ 8 * dt := by positivity
      rw [if_neg (by linarith), ih _ (by dsimp only; linarith), numSteps_succ dt tf s.t hdt hc, sizes_succ dt tf s.t hdt hc]
      dsimp only
      by_cases hf : numSteps dt tf (s.t + dt) ≤ fuel
      · rw [if_pos hf, if_pos (by omega)]
        simp only [List.sum_cons, List.append_assoc, List.cons_append, List.nil_append, Option.some.injEq, State.mk.injEq, and_true]
        refine ⟨by ring, ?_⟩
        push_cast
        ring
      · rw [if_neg hf, if_neg (by omega)]

/-- **C36, what the steps look like**: positive, at most `dt`, all but the last equal to `dt`, never past the final time, and ending at it up to
`10⁻⁸ dt`. -/
theorem C36_sizes (dt tf t : ℝ) (hdt : 0 < dt) (h : t < tf) :
    (∀ x ∈ sizes dt tf t, 0 < x ∧ x ≤ dt) ∧ (sizes dt tf t).length = numSteps dt tf t ∧
      (∀ n, t + ((sizes dt tf t).take n).sum ≤ tf) ∧ tf - 1 / 10 ^ 8 * dt ≤ t + (sizes dt tf t).sum := by
  have key : ∀ (n : ℕ) (t : ℝ), numSteps dt tf t = n → t < tf →
      (∀ x ∈ sizes dt tf t, 0 < x ∧ x ≤ dt) ∧ (sizes dt tf t).length = numSteps dt tf t ∧
      (∀ n, t + ((sizes dt tf t).take n).sum ≤ tf) ∧ tf - 1 / 10 ^ 8 * dt ≤ t + (sizes dt tf t).sum := by
    intro n
    induction n with
    | zero =>
      intro t h0
      have : 1 ≤ numSteps dt tf t := le_max_left _ _
      omega
    | succ n ih =>
      intro t hn h
      have hpos : (0 : ℝ) < 1 / 10 ^ 8 * dt := by positivity
      by_cases hc : tf - t ≤ (1 + 1 / 10 ^ 8) * dt
      · rw [sizes_one dt tf t hdt hc, numSteps_one dt tf t hdt hc]
        refine ⟨?_, rfl, ?_, ?_⟩
        · intro x hx
          rw [List.mem_singleton] at hx
          subst hx
          exact ⟨lt_min hdt (by linarith), min_le_left _ _⟩
        · intro m
          cases m with
          | zero => simp; exact h.le
          | succ m =>
            have := min_le_right dt (tf - t)
            simp
            linarith
        · simp only [List.sum_cons, List.sum_nil, add_zero]
          rcases le_total dt (tf - t) with h1 | h1
          · rw [min_eq_left h1]; linarith
          · rw [min_eq_right h1]; linarith
      · push Not at hc
        have hlt : t + dt < tf := by linarith
        obtain ⟨i1, i2, i3, i4⟩ := ih (t + dt) (by rw [numSteps_succ dt tf t hdt hc] at hn; omega) hlt
        rw [sizes_succ dt tf t hdt hc, numSteps_succ dt tf t hdt hc]
        refine ⟨?_, ?_, ?_, ?_⟩
        · intro x hx
          rw [List.mem_cons] at hx
          rcases hx with rfl | hx
          · exact ⟨hdt, le_rfl⟩
          · exact i1 x hx
        · rw [List.length_cons, i2]
        · intro m
          cases m with
          | zero => simp; exact h.le
          | succ m =>
            rw [List.take_succ_cons, List.sum_cons, ← add_assoc]
            exact i3 m
        · rw [List.sum_cons, ← add_assoc]
          exact i4
  exact key _ t rfl h

/-- **C36, refuted at the final time**: a run started at (or restarted from) its final time takes one step of size zero. -/
theorem C36_zero_step_wrong (dt : ℝ) (hdt : 0 < dt) (s : State) (fuel : ℕ) :
    loop id dt s.t (fuel + 1) s = some { t := s.t, cycle := s.cycle + 1, steps := s.steps ++ [0] } := by
  rw [loop]
  have hb : body id dt s.t s = { t := s.t, cycle := s.cycle + 1, steps := s.steps ++ [0] } := by
    simp [body, hdt.le]
  rw [hb, last_id, if_pos]
  dsimp only
  rw [sub_self]
  positivity

/-- **C36, outside its hypotheses**: a run restarted after its final time takes one backward step. -/
theorem C36_backward_step (dt tf : ℝ) (hdt : 0 < dt) (s : State) (h : tf < s.t) (fuel : ℕ) :
    loop id dt tf (fuel + 1) s = some { t := tf, cycle := s.cycle + 1, steps := s.steps ++ [tf - s.t] } := by
  rw [loop]
  have hb : body id dt tf s = { t := tf, cycle := s.cycle + 1, steps := s.steps ++ [tf - s.t] } := by
    simp only [body, id]
    rw [min_eq_right (by linarith)]
    simp
  rw [hb, last_id, if_pos]
  dsimp only
  rw [sub_self]
  positivity

/-- **C36, outside its hypotheses**: with a step that is not positive the loop does not end. -/
theorem C36_nonpositive_step (dt tf : ℝ) (hdt : dt ≤ 0) (s : State) (h : s.t < tf ∨ dt < 0) (fuel : ℕ) : loop id dt tf fuel s = none := by
  induction fuel generalizing s with
  | zero => rfl
  | succ fuel ih =>
    have ht : (body id dt tf s).t = s.t + min dt (tf - s.t) := rfl
    have hlt : (body id dt tf s).t < tf ∨ dt < 0 := by
      rcases h with h | h
      · left
        rw [ht]
        have := min_le_left dt (tf - s.t)
        linarith
      · exact Or.inr h
    rw [loop]
    rw [last_id, if_neg, ih _ hlt]
    rw [ht]
    rcases hlt with h1 | h1
    · rw [ht] at h1
      have : (1 : ℝ) / 10 ^ 8 * dt ≤ 0 := mul_nonpos_of_nonneg_of_nonpos (by positivity) hdt
      linarith
    · have h2 : (1 : ℝ) / 10 ^ 8 * dt < 0 := mul_neg_of_pos_of_neg (by positivity) h1
      have := min_le_right dt (tf - s.t)
      linarith

/-- **C36, refuted under rounding**: if adding the step to the time rounds back to the time, the loop does not end. -/
theorem C36_stuck_wrong (rnd : ℝ → ℝ) (dt tf : ℝ) (s : State) (h1 : dt ≤ rnd (tf - s.t)) (h2 : rnd (s.t + dt) = s.t)
    (h3 : s.t < rnd (tf - rnd (1 / 10 ^ 8 * dt))) (fuel : ℕ) : loop rnd dt tf fuel s = none := by
  induction fuel generalizing s with
  | zero => rfl
  | succ fuel ih =>
    have ht : (body rnd dt tf s).t = s.t := by
      simp only [body]
      rw [min_eq_left h1, h2]
    rw [loop]
    rw [if_neg, ih] <;> rw [ht]
    · exact h1
    · exact h2
    · exact h3
    · unfold last
      linarith

/-! ### Examples -/

/-- Three steps of 0.4 towards 1: two full ones and one of 0.2. -/
example : numSteps (2 / 5) 1 0 = 3 ∧ sizes (2 / 5) 1 0 = [2 / 5, 2 / 5, 1 / 5] := by
  have e : numSteps (2 / 5) 1 0 = 3 := by
    rw [numSteps_succ _ _ _ (by norm_num) (by norm_num), numSteps_succ _ _ _ (by norm_num) (by norm_num),
      numSteps_one _ _ _ (by norm_num) (by norm_num)]
  refine ⟨e, ?_⟩
  rw [sizes_succ _ _ _ (by norm_num) (by norm_num), sizes_succ _ _ _ (by norm_num) (by norm_num), sizes_one _ _ _ (by norm_num) (by norm_num)]
  norm_num

/-- Rounding to even numbers above `2⁵³`, as doubles do, and a step of one. -/
example (fuel : ℕ) : loop (fun x => if (2 : ℝ) ^ 53 ≤ x then 2 * (⌊x / 2⌋ : ℝ) else x) 1 (2 ^ 53 + 4) fuel ⟨2 ^ 53, 0, []⟩ = none := by
  apply C36_stuck_wrong
  · norm_num
  · have : ⌊((2 : ℝ) ^ 53 + 1) / 2⌋ = 2 ^ 52 := by rw [Int.floor_eq_iff]; norm_num
    dsimp only
    rw [if_pos (by norm_num), this]
    norm_num
  · dsimp only
    rw [if_neg (c := (2 : ℝ) ^ 53 ≤ 1 / 10 ^ 8 * 1) (by norm_num)]
    have : ⌊((2 : ℝ) ^ 53 + 4 - 1 / 10 ^ 8 * 1) / 2⌋ = 2 ^ 52 + 1 := by rw [Int.floor_eq_iff]; norm_num
    rw [if_pos (by norm_num), this]
    norm_num

end Serac.C36
