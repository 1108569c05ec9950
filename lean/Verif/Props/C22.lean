import Verif.Model.Ode
import Mathlib.Tactic.Ring
import Mathlib.Data.List.Induction
/-!
# C22: selecting a time integrator leaves the solver using exactly that integrator

Spec.  After a sequence of selections the object should step with the last one, with work vectors of size `n` (a second-order method) or
`2n` (backward Euler on the first-order system).

`FirstOrderODE`: holds for every sequence (`C22_first_order`).  `SecondOrderODE`: holds for sequences of second-order methods only, and for
a single selection of backward Euler (`C22_second_order_partial`, `C22_backward_euler_partial`).  It fails for every sequence that selects
backward Euler after a second-order method (the stale integrator keeps running, `C22_backward_euler_after_wrong`), for backward Euler
selected twice (the width doubles again, `C22_backward_euler_twice_wrong`) and for a second-order method after backward Euler (work
vectors of the wrong size, `C22_second_after_backward_euler_wrong`).
-/

namespace Serac.C22
open Serac.Ode

/-- The second-order methods of the documentation (solver_config.hpp:42-56). -/
def IsSecond (m : Method) : Prop :=
  m = .Newmark ∨ m = .HHTAlpha ∨ m = .WBZAlpha ∨ m = .AverageAcceleration ∨ m = .LinearAcceleration ∨ m = .CentralDifference ∨
    m = .FoxGoodwin

/-- The first-order methods of the documentation (solver_config.hpp:29-39). -/
def IsFirst (m : Method) : Prop :=
  m = .BackwardEuler ∨ m = .SDIRK33 ∨ m = .ForwardEuler ∨ m = .RK2 ∨ m = .RK3SSP ∨ m = .RK4 ∨ m = .GeneralizedAlpha ∨
    m = .ImplicitMidpoint ∨ m = .SDIRK23 ∨ m = .SDIRK34

/-- A sequence of selections; `none` if one of them aborts. -/
def selectAll (s : Select2) (ms : List Method) : Option Select2 := ms.foldl (fun s m => s.bind (·.set m)) (some s)

def selectAllFirst (ms : List Method) : Option (Option Method) := ms.foldl (fun s m => s.bind (firstSet · m)) (some none)

theorem selectAll_append (s : Select2) (l₁ l₂ : List Method) :
    selectAll s (l₁ ++ l₂) = (selectAll s l₁).bind fun s => selectAll s l₂ := by
  unfold selectAll
  rw [List.foldl_append]
  cases List.foldl (fun s m => s.bind (·.set m)) (some s) l₁ with
  | none =>
    induction l₂ with
    | nil => rfl
    | cons a l ih => exact ih
  | some s' => rfl

theorem set_second (s : Select2) (m : Method) (h : IsSecond m) :
    s.set m = some { s with second := some (m, s.width), timestepper := some m } := by
  rcases h with rfl | rfl | rfl | rfl | rfl | rfl | rfl <;> rfl

/-- Any sequence of second-order methods: the last one is used, with the right size. -/
theorem C22_second_order_partial (n : ℕ) (ms : List Method) (m : Method) (h : ∀ k ∈ ms, IsSecond k) (hm : IsSecond m) :
    ∃ s, selectAll (Select2.init n) (ms ++ [m]) = some s ∧ s.stepsWith = some (m, n) ∧ s.timestepper = some m := by
  have hw : ∀ (ms : List Method) (s : Select2), (∀ k ∈ ms, IsSecond k) → ∃ s', selectAll s ms = some s' ∧ s'.width = s.width := by
    intro ms
    induction ms with
    | nil => intro s _; exact ⟨s, rfl, rfl⟩
    | cons a l ih =>
      intro s hs
      have ha := set_second s a (hs a List.mem_cons_self)
      obtain ⟨s', h1, h2⟩ := ih { s with second := some (a, s.width), timestepper := some a } (fun k hk => hs k (List.mem_cons_of_mem _ hk))
      refine ⟨s', ?_, h2⟩
      unfold selectAll at h1 ⊢
      rw [List.foldl_cons, Option.bind_some, ha]
      exact h1
  obtain ⟨s, h1, h2⟩ := hw ms (Select2.init n) h
  refine ⟨{ s with second := some (m, s.width), timestepper := some m }, ?_, ?_, rfl⟩
  · rw [selectAll_append, h1, Option.bind_some]
    exact set_second s m hm
  · show some (m, s.width) = some (m, n)
    rw [h2]; rfl

/-- Backward Euler selected once on a fresh object: used on the system of size `2n`. -/
theorem C22_backward_euler_partial (n : ℕ) :
    ∃ s, selectAll (Select2.init n) [.BackwardEuler] = some s ∧ s.stepsWith = some (.BackwardEuler, 2 * n) :=
  ⟨_, rfl, by simp [Select2.init, Select2.stepsWith, mul_comm]⟩

/-- Once a second-order method has been selected, selecting backward Euler (after any further second-order selections) has no effect: the
previous integrator keeps being used, while the object reports backward Euler. -/
theorem C22_backward_euler_after_wrong (n : ℕ) (ms : List Method) (m : Method) (h : ∀ k ∈ ms, IsSecond k) (hm : IsSecond m) :
    ∃ s, selectAll (Select2.init n) (ms ++ [m, .BackwardEuler]) = some s ∧ s.timestepper = some .BackwardEuler ∧
      s.stepsWith = some (m, n) ∧ m ≠ .BackwardEuler := by
  obtain ⟨s, h1, h2, -⟩ := C22_second_order_partial n ms m h hm
  have hw : s.width = n ∧ s.second = some (m, n) := by
    have : ∀ (ms : List Method) (s s' : Select2), (∀ k ∈ ms, IsSecond k) → selectAll s ms = some s' → s'.width = s.width := by
      intro ms
      induction ms with
      | nil => intro s s' _ h; rw [← Option.some_inj.1 h]
      | cons a l ih =>
        intro s s' hs hs'
        unfold selectAll at hs'
        rw [List.foldl_cons, Option.bind_some, set_second s a (hs a List.mem_cons_self)] at hs'
        exact ih { s with second := some (a, s.width), timestepper := some a } s' (fun k hk => hs k (List.mem_cons_of_mem _ hk)) hs'
    have hwid : s.width = n := this (ms ++ [m]) (Select2.init n) s
      (fun k hk => by rcases List.mem_append.1 hk with h' | h'; exacts [h k h', by rw [List.mem_singleton.1 h']; exact hm]) h1
    refine ⟨hwid, ?_⟩
    rw [selectAll_append] at h1
    cases hms : selectAll (Select2.init n) ms with
    | none => rw [hms] at h1; exact absurd h1 (by simp)
    | some s0 =>
      rw [hms, Option.bind_some] at h1
      have : selectAll s0 [m] = some { s0 with second := some (m, s0.width), timestepper := some m } := set_second s0 m hm
      rw [this, Option.some_inj] at h1
      rw [← h1] at hwid ⊢
      have : s0.width = n := hwid
      show some (m, s0.width) = some (m, n)
      rw [this]
  refine ⟨{ s with timestepper := some .BackwardEuler, firstSys := some (.BackwardEuler, 0), second := some (m, n) }, ?_, rfl, ?_, ?_⟩
  · rw [show ms ++ [m, .BackwardEuler] = (ms ++ [m]) ++ [.BackwardEuler] by simp, selectAll_append, h1, Option.bind_some]
    show s.set .BackwardEuler = _
    simp only [Select2.set, Option.bind_some, hw.2, hw.1]
  · rfl
  · rcases hm with rfl | rfl | rfl | rfl | rfl | rfl | rfl <;> simp

/-- Backward Euler selected `k + 1` times on a fresh object: the operator (and the integrator's work vectors) have size `2^(k+1) n`. -/
theorem C22_backward_euler_twice_wrong (n k : ℕ) :
    ∃ s, selectAll (Select2.init n) (List.replicate (k + 1) .BackwardEuler) = some s ∧
      s.stepsWith = some (.BackwardEuler, 2 ^ (k + 1) * n) := by
  have : ∀ k, ∃ s, selectAll (Select2.init n) (List.replicate (k + 1) .BackwardEuler) = some s ∧ s.second = none ∧
      s.width = 2 ^ (k + 1) * n ∧ s.firstSys = some (.BackwardEuler, 2 ^ (k + 1) * n) := by
    intro k
    induction k with
    | zero => exact ⟨_, rfl, rfl, by simp [Select2.init, mul_comm], by simp [Select2.init, mul_comm]⟩
    | succ k ih =>
      obtain ⟨s, h1, h2, h3, h4⟩ := ih
      refine ⟨{ s with timestepper := some .BackwardEuler, width := s.width * 2, firstSys := some (.BackwardEuler, s.width * 2) }, ?_, h2, ?_, ?_⟩
      · rw [List.replicate_succ', selectAll_append, h1, Option.bind_some]
        show s.set .BackwardEuler = _
        simp only [Select2.set, Option.bind_some, h2]
      · show s.width * 2 = _
        rw [h3]; ring
      · show some (Method.BackwardEuler, s.width * 2) = _
        rw [h3]
        congr 2; ring
  obtain ⟨s, h1, h2, -, h4⟩ := this k
  exact ⟨s, h1, by rw [Select2.stepsWith, h2]; exact h4⟩

/-- A second-order method selected after backward Euler runs with work vectors of size `2n`. -/
theorem C22_second_after_backward_euler_wrong (n : ℕ) (m : Method) (hm : IsSecond m) :
    ∃ s, selectAll (Select2.init n) [.BackwardEuler, m] = some s ∧ s.stepsWith = some (m, 2 * n) := by
  refine ⟨{ (⟨none, some (.BackwardEuler, n * 2), n * 2, some .BackwardEuler⟩ : Select2) with second := some (m, n * 2), timestepper := some m },
    ?_, ?_⟩
  · show Select2.set ⟨none, some (.BackwardEuler, n * 2), n * 2, some .BackwardEuler⟩ m = _
    rw [set_second _ m hm]
  · show some (m, n * 2) = some (m, 2 * n)
    rw [mul_comm]

/-- Methods outside the documented list abort; documented ones never do. -/
theorem C22_second_order_abort (s : Select2) (m : Method) : s.set m = none ↔ ¬ (IsSecond m ∨ m = .BackwardEuler) := by
  cases m <;> simp [Select2.set, IsSecond]
  all_goals
    first
    | (rcases s with ⟨_ | ⟨a, b⟩, c, d, e⟩ <;> simp)

/-- `FirstOrderODE`: after any sequence that does not abort, the last method is used; a sequence aborts iff it contains an undocumented
method. -/
theorem C22_first_order (ms : List Method) (m : Method) :
    (selectAllFirst (ms ++ [m]) = some (some m) ↔ ∀ k ∈ ms ++ [m], IsFirst k) ∧
    (selectAllFirst (ms ++ [m]) = none ↔ ¬ ∀ k ∈ ms ++ [m], IsFirst k) := by
  have hf : ∀ (c : Option Method) (k : Method), (IsFirst k → firstSet c k = some (some k)) ∧ (¬ IsFirst k → firstSet c k = none) := by
    intro c k; cases k <;> simp [IsFirst, firstSet]
  have hall : ∀ ms : List Method, ((∀ k ∈ ms, IsFirst k) → ∃ c, selectAllFirst ms = some c) ∧
      ((¬ ∀ k ∈ ms, IsFirst k) → selectAllFirst ms = none) := by
    intro ms
    induction ms using List.reverseRecOn with
    | nil => exact ⟨fun _ => ⟨_, rfl⟩, fun h => absurd (fun k hk => by simp at hk) h⟩
    | append_singleton l a ih =>
      have e : selectAllFirst (l ++ [a]) = (selectAllFirst l).bind (firstSet · a) := by
        unfold selectAllFirst; rw [List.foldl_append]; rfl
      rw [e]
      constructor
      · intro h
        obtain ⟨c, hc⟩ := ih.1 fun k hk => h k (List.mem_append_left _ hk)
        exact ⟨_, by rw [hc, Option.bind_some, (hf c a).1 (h a (by simp))]⟩
      · intro h
        by_cases hl : ∀ k ∈ l, IsFirst k
        · obtain ⟨c, hc⟩ := ih.1 hl
          rw [hc, Option.bind_some]
          refine (hf c a).2 fun ha => h fun k hk => ?_
          rcases List.mem_append.1 hk with h' | h'
          · exact hl k h'
          · rw [List.mem_singleton.1 h']; exact ha
        · rw [ih.2 hl, Option.bind_none]
  have e : selectAllFirst (ms ++ [m]) = (selectAllFirst ms).bind (firstSet · m) := by
    unfold selectAllFirst; rw [List.foldl_append]; rfl
  have hpos : (∀ k ∈ ms ++ [m], IsFirst k) → selectAllFirst (ms ++ [m]) = some (some m) := by
    intro h
    obtain ⟨c, hc⟩ := (hall ms).1 fun k hk => h k (List.mem_append_left _ hk)
    rw [e, hc, Option.bind_some, (hf c m).1 (h m (by simp))]
  have hneg := (hall (ms ++ [m])).2
  constructor
  · refine ⟨fun h => ?_, hpos⟩
    by_contra hn
    rw [hneg hn] at h
    exact absurd h (by simp)
  · refine ⟨fun h hp => ?_, hneg⟩
    rw [hpos hp] at h
    exact absurd h (by simp)

/-! ## Non-vacuity -/

example : IsSecond .Newmark ∧ IsSecond .FoxGoodwin ∧ IsFirst .RK4 ∧ ¬ IsFirst .Newmark := by simp [IsSecond, IsFirst]

/-- Newmark, then backward Euler: Newmark is still what runs. -/
example : (selectAll (Select2.init 10) [.Newmark, .BackwardEuler]).bind (·.stepsWith) = some (.Newmark, 10) := rfl

end Serac.C22
