import Verif.Model.Ode
import Mathlib.Tactic.Ring
import Mathlib.Tactic.FieldSimp
/-! # Lemmas for the transient solvers -/

noncomputable section
namespace Serac.Ode

theorem foldl_update_apply {n : ℕ} (f : Fin n → ℝ) (dofs : List (Fin n)) (v : Vec n) (i : Fin n) :
    dofs.foldl (fun v i => Function.update v i (f i)) v i = if i ∈ dofs then f i else v i := by
  induction dofs generalizing v with
  | nil => simp
  | cons j l ih =>
    rw [List.foldl_cons, ih]
    by_cases h : i ∈ l
    · simp [h]
    · rw [if_neg h]
      by_cases hj : i = j
      · subst hj; simp
      · rw [Function.update_of_ne hj, if_neg]; simp [h, hj]

theorem setSub_apply {n : ℕ} (v : Vec n) (dofs : List (Fin n)) (a : ℝ) (i : Fin n) :
    setSub v dofs a i = if i ∈ dofs then a else v i := foldl_update_apply (fun _ => a) dofs v i

theorem setSubCompl_apply {n : ℕ} (v : Vec n) (dofs : List (Fin n)) (a : ℝ) (i : Fin n) :
    setSubCompl v dofs a i = if i ∈ dofs then v i else a := foldl_update_apply v dofs _ i

/-- Spec: the boundary conditions prescribe the history `g` (conditions sharing a dof agree on it), and the manager's dof list is the set
of constrained dofs. -/
def Prescribes {n : ℕ} (b : BCs n) (g : ℝ → Fin n → ℝ) : Prop :=
  (∀ bc ∈ b.essentials, ∀ i ∈ bc.dofs, ∀ t, bc.value t i = g t i) ∧ ∀ i, i ∈ b.allDofs ↔ ∃ bc ∈ b.essentials, i ∈ bc.dofs

theorem eval_foldl {n : ℕ} (l : List (BC n)) (g : ℝ → Fin n → ℝ) (h : ∀ bc ∈ l, ∀ i ∈ bc.dofs, ∀ t, bc.value t i = g t i) (t : ℝ)
    (v : Vec n) (i : Fin n) :
    l.foldl (fun v bc => bc.setDofs v t) v i = if ∃ bc ∈ l, i ∈ bc.dofs then g t i else v i := by
  induction l generalizing v with
  | nil => simp
  | cons b l ih =>
    rw [List.foldl_cons, ih (fun bc hbc => h bc (List.mem_cons_of_mem _ hbc))]
    by_cases hl : ∃ bc ∈ l, i ∈ bc.dofs
    · rw [if_pos hl, if_pos]
      obtain ⟨bc, h1, h2⟩ := hl
      exact ⟨bc, List.mem_cons_of_mem _ h1, h2⟩
    · rw [if_neg hl]
      unfold BC.setDofs
      rw [foldl_update_apply (fun i => b.value t i)]
      by_cases hb : i ∈ b.dofs
      · rw [if_pos hb, if_pos ⟨b, List.mem_cons_self, hb⟩, h b List.mem_cons_self i hb]
      · rw [if_neg hb, if_neg]
        rintro ⟨bc, h1, h2⟩
        rcases List.mem_cons.1 h1 with rfl | h1
        · exact hb h2
        · exact hl ⟨bc, h1, h2⟩

theorem eval_apply {n : ℕ} {b : BCs n} {g : ℝ → Fin n → ℝ} (h : Prescribes b g) (t : ℝ) (i : Fin n) :
    b.eval t i = if i ∈ b.allDofs then g t i else 0 := by
  unfold BCs.eval
  rw [eval_foldl b.essentials g h.1]
  simp only [h.2 i]

theorem eval_mem {n : ℕ} {b : BCs n} {g : ℝ → Fin n → ℝ} (h : Prescribes b g) (t : ℝ) {i : Fin n} (hi : i ∈ b.allDofs) :
    b.eval t i = g t i := by rw [eval_apply h, if_pos hi]

/-- Assumption on the nonlinear solver: the constrained entries of the initial guess are returned unchanged. -/
def Keeps {n : ℕ} {S : Type} (b : BCs n) (solve : S → Vec n → Vec n) : Prop := ∀ st v, ∀ i ∈ b.allDofs, solve st v i = v i

theorem solve2_spec {n : ℕ} {b : BCs n} {m : Enforce} {solve : State2 n → Vec n → Vec n} (hk : Keeps b solve) (st : State2 n)
    {time c0 c1 : ℝ} {u du U dU d2U : Vec n} (hc : constraint2 b m time c0 c1 u du = some (U, dU, d2U)) :
    ∃ st' a, solve2 b m solve st time c0 c1 u du = some (st', a) ∧ st'.time = time ∧ st'.c0 = c0 ∧ st'.c1 = c1 ∧ st'.d2u = a ∧
      (∀ i ∈ b.allDofs, st'.u i = U i ∧ st'.du i = dU i ∧ a i = d2U i) ∧ ∀ i ∉ b.allDofs, st'.u i = u i ∧ st'.du i = du i := by
  unfold solve2
  rw [hc, Option.map_some]
  refine ⟨_, _, rfl, rfl, rfl, rfl, rfl, fun i hi => ⟨?_, ?_, ?_⟩, fun i hi => ⟨?_, ?_⟩⟩
  · dsimp only; rw [setSub_apply, setSubCompl_apply, if_pos hi, if_pos hi, zero_add]
  · dsimp only; rw [setSub_apply, setSubCompl_apply, if_pos hi, if_pos hi, zero_add]
  · rw [hk _ _ i hi, setSubCompl_apply, if_pos hi, setSub_apply, if_pos hi, zero_add]
  · dsimp only; rw [setSub_apply, setSubCompl_apply, if_neg hi, if_neg hi, add_zero]
  · dsimp only; rw [setSub_apply, setSubCompl_apply, if_neg hi, if_neg hi, add_zero]

theorem solve1_spec {n : ℕ} {b : BCs n} {m : Enforce} {solve : State1 n → Vec n → Vec n} (hk : Keeps b solve) (st : State1 n)
    (time dt : ℝ) (u : Vec n) :
    (∀ i ∈ b.allDofs, (solve1 b m solve st time dt u).1.u i = (constraint1 b m time dt u).1 i ∧
      (solve1 b m solve st time dt u).2 i = (constraint1 b m time dt u).2 i) ∧
    (∀ i ∉ b.allDofs, (solve1 b m solve st time dt u).1.u i = u i) := by
  unfold solve1
  refine ⟨fun i hi => ⟨?_, ?_⟩, fun i hi => ?_⟩
  · dsimp only; rw [setSub_apply, setSubCompl_apply, if_pos hi, if_pos hi, zero_add]
  · dsimp only; rw [hk _ _ i hi, setSub_apply, if_pos hi, setSubCompl_apply, if_pos hi, zero_add]
  · dsimp only; rw [setSub_apply, setSubCompl_apply, if_neg hi, if_neg hi, add_zero]

end Serac.Ode
