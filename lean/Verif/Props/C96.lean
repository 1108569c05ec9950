import Verif.Props.C59
/-!
# C96: gradients of analyses with contact

`SolidMechanicsContact` (`src/serac/physics/solid_mechanics_contact.hpp` 34-37) inherits `setAdjointLoad`, `reverseAdjointTimestep` and
`computeTimestepSensitivity` from `SolidMechanics` (`src/serac/physics/solid_mechanics.hpp` 1311-1417) and overrides none of them.  The forward steps
solve `R(u, p) + f = 0` on the free dofs, where `f` are the contact forces; the reverse steps use the derivatives of `R` only.

Spec.  A `ContactFamily` is an analysis of `N` steps for every value of a real number `s`, in which the body and the contact forces `f k s` are in
equilibrium at the end of step `k`.  Contact forces are arbitrary differentiable functions: penalty forces and multipliers alike.

`C96_gradient` says what the adjoint pass leaves out: the adjoint displacements applied to the change of the contact forces.  So the pass is right for
every objective if and only if the contact forces do not change (`C96_iff`); it is right without contact (`C96_free_partial`).
-/

noncomputable section
namespace Serac.C96
open Serac.Elim
open Serac.Adj (transpose mulVecT)
open Serac.StaticAdj
open Serac.C29 (Ess mulVecT_dot)
open Serac.C59 (time traj steps mulP At loads Gradient)
open scoped Matrix
open Finset

variable {n m : ℕ}

structure ContactFamily (q : Problem n m) (t0 : ℝ) (dt : ℕ → ℝ) (u0 : Vec n) (N : ℕ) (p : ℝ → Vec m) (p' : Vec m) (u' : ℕ → Vec n)
    (f : ℕ → ℝ → Vec n) (f' : ℕ → Vec n) (s0 : ℝ) : Prop where
  dp : HasDerivAt p p' s0
  du : ∀ k, 1 ≤ k → k ≤ N → HasDerivAt (fun s => traj q t0 dt u0 (p s) k) (u' k) s0
  df : ∀ k, 1 ≤ k → k ≤ N → HasDerivAt (f k) (f' k) s0
  /-- equilibrium of body and contact forces on the free dofs -/
  eq : ∀ k, 1 ≤ k → k ≤ N → ∀ i, ¬ Ess q.conds i → ∀ᶠ s in nhds s0, q.residual (time t0 dt k) (traj q t0 dt u0 (p s) k) (p s) i + f k s i = 0
  /-- prescribed values do not depend on the parameter -/
  bc : ∀ k, 1 ≤ k → k ≤ N → ∀ i, Ess q.conds i → ∀ᶠ s in nhds s0, traj q t0 dt u0 (p s) k i = traj q t0 dt u0 (p s0) k i
  /-- assembled derivatives of the body's residual -/
  deriv : ∀ k, 1 ≤ k → k ≤ N → ∃ L : (Vec n × Vec m) →L[ℝ] Vec n,
    HasFDerivAt (fun z : Vec n × Vec m => q.residual (time t0 dt k) z.1 z.2) L (traj q t0 dt u0 (p s0) k, p s0) ∧
    ∀ v w, L (v, w) = mulVec (q.K (time t0 dt k) (traj q t0 dt u0 (p s0) k) (p s0)) v + mulP (q.P (time t0 dt k) (traj q t0 dt u0 (p s0) k) (p s0)) w
  /-- the linear solver solves the adjoint systems -/
  exact : ∀ k, 1 ≤ k → k ≤ N → ∀ b,
    let A := elim (transpose (q.K (time t0 dt k) (traj q t0 dt u0 (p s0) k) (p s0))) q.conds.flatten
    mulVec A (q.linear A b) = b

/-- The adjoint displacement of step `k + 1` under the load `g`. -/
def adjoint (q : Problem n m) (t0 : ℝ) (dt : ℕ → ℝ) (u0 : Vec n) (p : Vec m) (g : ℕ → Vec n) (k : ℕ) : Vec n :=
  q.linear (elim (transpose (q.K (time t0 dt (k + 1)) (traj q t0 dt u0 p (k + 1)) p)) q.conds.flatten)
    fun i => if i ∈ q.conds.flatten then 0 else -g k i

section
variable {q : Problem n m} {t0 : ℝ} {dt : ℕ → ℝ} {u0 : Vec n} {N : ℕ} {p : ℝ → Vec m} {p' : Vec m} {u' : ℕ → Vec n} {f : ℕ → ℝ → Vec n}
  {f' : ℕ → Vec n} {s0 : ℝ}

theorem ess_iff (conds : List (List (Fin n))) (i : Fin n) : Ess conds i ↔ i ∈ conds.flatten := by rw [List.mem_flatten]; rfl

theorem ContactFamily.zero (hF : ContactFamily q t0 dt u0 N p p' u' f f' s0) (k : ℕ) (h1 : 1 ≤ k) (hk : k ≤ N) (i : Fin n) (hi : Ess q.conds i) :
    u' k i = 0 :=
  (hasDerivAt_pi.1 (hF.du k h1 hk) i).unique ((hasDerivAt_const s0 (traj q t0 dt u0 (p s0) k i)).congr_of_eventuallyEq (hF.bc k h1 hk i hi))

/-- The linearised equilibrium. -/
theorem ContactFamily.linear (hF : ContactFamily q t0 dt u0 N p p' u' f f' s0) (k : ℕ) (h1 : 1 ≤ k) (hk : k ≤ N) (i : Fin n) (hi : ¬ Ess q.conds i) :
    mulVec (q.K (time t0 dt k) (traj q t0 dt u0 (p s0) k) (p s0)) (u' k) i + mulP (q.P (time t0 dt k) (traj q t0 dt u0 (p s0) k) (p s0)) p' i + f' k i = 0 := by
  obtain ⟨L, hL1, hL2⟩ := hF.deriv k h1 hk
  have h := hL1.comp_hasDerivAt s0 ((hF.du k h1 hk).prodMk hF.dp)
  rw [hL2] at h
  have hi' := (hasDerivAt_pi.1 h i).add (hasDerivAt_pi.1 (hF.df k h1 hk) i)
  exact hi'.unique ((hasDerivAt_const s0 (0 : ℝ)).congr_of_eventuallyEq (hF.eq k h1 hk i hi))

/-- The identity behind the adjoint method. -/
theorem identity (conds : List (List (Fin n))) (K : Mat n) (a g v w c : Vec n)
    (ha : mulVec (elim (transpose K) conds.flatten) a = fun i => if i ∈ conds.flatten then 0 else -g i) (hv : ∀ i, Ess conds i → v i = 0)
    (hl : ∀ i, ¬ Ess conds i → mulVec K v i + w i + c i = 0) : g ⬝ᵥ v = a ⬝ᵥ w + a ⬝ᵥ c := by
  have haz : ∀ i, i ∈ conds.flatten → a i = 0 := by
    intro i hi
    have := congrFun ha i
    rw [if_pos hi] at this
    rw [← this]
    simp [mulVec, elim, hi]
  have haf : ∀ i, i ∉ conds.flatten → mulVecT K a i = -g i := by
    intro i hi
    have := congrFun ha i
    rw [if_neg hi] at this
    rw [← this]
    refine sum_congr rfl fun j _ => ?_
    by_cases hj : j ∈ conds.flatten
    · rw [haz j hj, mul_zero, mul_zero]
    · simp [elim, hi, hj, transpose]
  have h1 : mulVecT K a ⬝ᵥ v = -(g ⬝ᵥ v) := by
    simp only [dotProduct, ← sum_neg_distrib]
    refine sum_congr rfl fun i _ => ?_
    by_cases hi : i ∈ conds.flatten
    · rw [hv i ((ess_iff conds i).2 hi)]
      simp
    · rw [haf i hi]
      ring
  have h2 : a ⬝ᵥ mulVec K v = -(a ⬝ᵥ w) - a ⬝ᵥ c := by
    simp only [dotProduct, ← sum_neg_distrib, ← sum_sub_distrib]
    refine sum_congr rfl fun i _ => ?_
    by_cases hi : i ∈ conds.flatten
    · rw [haz i hi]
      ring
    · have := hl i fun h => hi ((ess_iff conds i).1 h)
      have e : mulVec K v i = -w i - c i := by linarith
      rw [e]
      ring
  rw [mulVecT_dot] at h1
  linarith

/-- What one reverse step contributes. -/
theorem contribution (hF : ContactFamily q t0 dt u0 N p p' u' f f' s0) (g : ℕ → Vec n) (k : ℕ) (hk : k < N) (s : State n m)
    (h : At q t0 dt u0 (p s0) N (k + 1) s) :
    ∃ s', reverse q (p s0) (setAdjointLoad (g k) s) = some s' ∧ At q t0 dt u0 (p s0) N k s' ∧
      (timestepSensitivity q (p s0) s').sens ⬝ᵥ p' = g k ⬝ᵥ u' (k + 1) - adjoint q t0 dt u0 (p s0) g k ⬝ᵥ f' (k + 1) := by
  obtain ⟨s', hs, hat, hd, hte, -, ha⟩ := C59.reverse_at q t0 dt u0 (p s0) N k hk (setAdjointLoad (g k) s) (h.set (g k))
  refine ⟨s', hs, hat, ?_⟩
  show multTranspose (q.P s'.timeEnd s'.disp (p s0)) s'.adj ⬝ᵥ p' = _
  have hadj : s'.adj = adjoint q t0 dt u0 (p s0) g k := by
    obtain ⟨e1, e2⟩ := C26.applyAll_spec q.conds 0 (transpose (q.K (time t0 dt (k + 1)) (traj q t0 dt u0 (p s0) (k + 1)) (p s0))) (setAdjointLoad (g k) s).load
    rw [ha, e1]
    unfold adjoint
    congr 1
    funext i
    rw [e2]
    simp [setAdjointLoad]
  rw [hd, hte, C59.multTranspose_dot, hadj]
  have := identity q.conds _ _ (g k) (u' (k + 1)) _ (f' (k + 1)) (hF.exact (k + 1) (by omega) (by omega) fun i => if i ∈ q.conds.flatten then 0 else -g k i)
    (hF.zero (k + 1) (by omega) (by omega)) (hF.linear (k + 1) (by omega) (by omega))
  unfold adjoint
  linarith

theorem pass_sum (hF : ContactFamily q t0 dt u0 N p p' u' f f' s0) (g : ℕ → Vec n) (k : ℕ) (hk : k ≤ N) (s : State n m) (h : At q t0 dt u0 (p s0) N k s) :
    ∃ r, pass q (p s0) (loads g k) s = some r ∧
      (r.1.map (· ⬝ᵥ p')).sum = ∑ j ∈ range k, (g j ⬝ᵥ u' (j + 1) - adjoint q t0 dt u0 (p s0) g j ⬝ᵥ f' (j + 1)) := by
  induction k generalizing s with
  | zero => exact ⟨([], s), rfl, rfl⟩
  | succ k ih =>
    obtain ⟨s', hs, hat, hsens⟩ := contribution hF g k (by omega) s h
    obtain ⟨r, hr, hr4⟩ := ih (by omega) (timestepSensitivity q (p s0) s') (hat.sens _)
    refine ⟨((timestepSensitivity q (p s0) s').sens :: r.1, r.2), ?_, ?_⟩
    · have hl : loads g (k + 1) = some (g k) :: loads g k := by simp [loads, List.range_succ]
      rw [hl, pass]
      dsimp only
      rw [hs]
      dsimp only
      rw [hr]
      rfl
    · rw [List.map_cons, List.sum_cons, hsens, hr4, sum_range_succ, add_comm]

theorem sum_dot (l : List (Vec m)) (w : Vec m) : l.sum ⬝ᵥ w = (l.map (· ⬝ᵥ w)).sum := by
  induction l with
  | nil => simp
  | cons a l ih => rw [List.sum_cons, add_dotProduct, ih, List.map_cons, List.sum_cons]

/-- **C96, what the adjoint pass returns.**  After `N` steps with contact the pass is defined, and the derivative of any objective of the displacements
of all steps is the sum of its sensitivities plus, for every step, the adjoint displacement applied to the change of the contact forces. -/
theorem C96_gradient (hF : ContactFamily q t0 dt u0 N p p' u' f f' s0) (J : (Fin N → Vec n) → ℝ) (g : ℕ → Vec n)
    (hJ : Gradient J (fun k => traj q t0 dt u0 (p s0) (k + 1)) g) :
    ∃ r, pass q (p s0) (loads g N) (forward q (p s0) (steps dt N) (start t0 u0)) = some r ∧
      HasDerivAt (fun s => J fun k : Fin N => traj q t0 dt u0 (p s) (k + 1))
        (r.1.sum ⬝ᵥ p' + ∑ k ∈ range N, adjoint q t0 dt u0 (p s0) g k ⬝ᵥ f' (k + 1)) s0 := by
  obtain ⟨r, hr, hsum⟩ := pass_sum hF g N (le_refl N) _ (C59.C59_forward q t0 dt u0 (p s0) N).1
  refine ⟨r, hr, ?_⟩
  rw [sum_dot, hsum, sum_sub_distrib, sub_add_cancel]
  obtain ⟨L, hL1, hL2⟩ := hJ
  have hd : HasDerivAt (fun s => fun k : Fin N => traj q t0 dt u0 (p s) (k + 1)) (fun k : Fin N => u' (k + 1)) s0 :=
    hasDerivAt_pi.2 fun k => hF.du (k + 1) (by omega) (by have := k.2; omega)
  have h := hL1.comp_hasDerivAt s0 hd
  rw [hL2] at h
  rw [← Fin.sum_univ_eq_sum_range fun j => g j ⬝ᵥ u' (j + 1)]
  exact h

theorem adjoint_ess (hF : ContactFamily q t0 dt u0 N p p' u' f f' s0) (g : ℕ → Vec n) (k : ℕ) (hk : k < N) (i : Fin n) (hi : Ess q.conds i) :
    adjoint q t0 dt u0 (p s0) g k i = 0 := by
  have h := congrFun (hF.exact (k + 1) (by omega) (by omega) fun i => if i ∈ q.conds.flatten then 0 else -g k i) i
  rw [ess_iff] at hi
  rw [if_pos hi] at h
  rw [← h]
  simp [mulVec, elim, hi, adjoint]

/-- **C96, without contact** (partial: the contact forces on free dofs do not change with the parameter; in particular nothing touches).  The sum of the
sensitivities is the derivative. -/
theorem C96_free_partial (hF : ContactFamily q t0 dt u0 N p p' u' f f' s0) (hf : ∀ k, 1 ≤ k → k ≤ N → ∀ i, ¬ Ess q.conds i → f' k i = 0)
    (J : (Fin N → Vec n) → ℝ) (g : ℕ → Vec n) (hJ : Gradient J (fun k => traj q t0 dt u0 (p s0) (k + 1)) g) :
    ∃ r, pass q (p s0) (loads g N) (forward q (p s0) (steps dt N) (start t0 u0)) = some r ∧
      HasDerivAt (fun s => J fun k : Fin N => traj q t0 dt u0 (p s) (k + 1)) (r.1.sum ⬝ᵥ p') s0 := by
  obtain ⟨r, hr, hd⟩ := C96_gradient hF J g hJ
  refine ⟨r, hr, ?_⟩
  have hz : ∑ k ∈ range N, adjoint q t0 dt u0 (p s0) g k ⬝ᵥ f' (k + 1) = 0 := by
    refine sum_eq_zero fun k hk => ?_
    rw [mem_range] at hk
    refine sum_eq_zero fun i _ => ?_
    by_cases hi : Ess q.conds i
    · rw [adjoint_ess hF g k hk i hi, zero_mul]
    · rw [hf (k + 1) (by omega) (by omega) i hi, mul_zero]
  rwa [hz, add_zero] at hd

/-- The objective with constant derivatives `g`. -/
def linearObjective (g : ℕ → Vec n) (z : Fin N → Vec n) : ℝ := ∑ k : Fin N, g k ⬝ᵥ z k

/-- The pass returns the derivative of the objective with constant derivatives `g`. -/
def Right (q : Problem n m) (t0 : ℝ) (dt : ℕ → ℝ) (u0 : Vec n) (N : ℕ) (p : ℝ → Vec m) (p' : Vec m) (s0 : ℝ) (g : ℕ → Vec n) : Prop :=
  ∃ r, pass q (p s0) (loads g N) (forward q (p s0) (steps dt N) (start t0 u0)) = some r ∧
    HasDerivAt (fun s => linearObjective g fun k : Fin N => traj q t0 dt u0 (p s) (k + 1)) (r.1.sum ⬝ᵥ p') s0

theorem linear_gradient (g : ℕ → Vec n) (z : Fin N → Vec n) : Gradient (linearObjective g) z g := by
  let L : (Fin N → Vec n) →ₗ[ℝ] ℝ :=
    { toFun := linearObjective g
      map_add' := fun x y => by simp [linearObjective, dotProduct_add, sum_add_distrib]
      map_smul' := fun c x => by simp [linearObjective, dotProduct_smul, mul_sum] }
  exact ⟨LinearMap.toContinuousLinearMap L, (LinearMap.toContinuousLinearMap L).hasFDerivAt, fun _ => rfl⟩

theorem right_iff (hF : ContactFamily q t0 dt u0 N p p' u' f f' s0) (g : ℕ → Vec n) :
    Right q t0 dt u0 N p p' s0 g ↔ ∑ k ∈ range N, adjoint q t0 dt u0 (p s0) g k ⬝ᵥ f' (k + 1) = 0 := by
  obtain ⟨r, hr, hd⟩ := C96_gradient hF (linearObjective g) g (linear_gradient g _)
  constructor
  · rintro ⟨r2, hr2, hd2⟩
    obtain rfl : r = r2 := Option.some.inj (hr.symm.trans hr2)
    have := hd.unique hd2
    linarith
  · intro h
    rw [h, add_zero] at hd
    exact ⟨r, hr, hd⟩

/-- **C96, with contact, refuted.**  The pass returns the derivatives of all objectives if and only if no contact force on a free dof changes with the
parameter, to first order, in any step. -/
theorem C96_iff (hF : ContactFamily q t0 dt u0 N p p' u' f f' s0) :
    (∀ g, Right q t0 dt u0 N p p' s0 g) ↔ ∀ k, 1 ≤ k → k ≤ N → ∀ i, ¬ Ess q.conds i → f' k i = 0 := by
  constructor
  · intro h k h1 hk i hi
    obtain ⟨k, rfl⟩ : ∃ j, k = j + 1 := ⟨k - 1, by omega⟩
    have hi' : i ∉ q.conds.flatten := fun h => hi ((ess_iff q.conds i).2 h)
    -- the solver inverts the adjoint systems
    have hinv : ∀ j, j < N → ∀ x, q.linear (elim (transpose (q.K (time t0 dt (j + 1)) (traj q t0 dt u0 (p s0) (j + 1)) (p s0))) q.conds.flatten)
        (mulVec (elim (transpose (q.K (time t0 dt (j + 1)) (traj q t0 dt u0 (p s0) (j + 1)) (p s0))) q.conds.flatten) x) = x := by
      intro j hj x
      have hex := hF.exact (j + 1) (by omega) (by omega)
      generalize elim (transpose (q.K (time t0 dt (j + 1)) (traj q t0 dt u0 (p s0) (j + 1)) (p s0))) q.conds.flatten = A at hex
      have hlin : ∀ b, Matrix.mulVecLin (Matrix.of A) (q.linear A b) = b := hex
      have hs : Function.Surjective (Matrix.mulVecLin (Matrix.of A)) := fun b => ⟨q.linear A b, hlin b⟩
      have hj : Function.Injective (Matrix.mulVecLin (Matrix.of A)) := LinearMap.injective_iff_surjective.2 hs
      exact hj (hlin _)
    set A := elim (transpose (q.K (time t0 dt (k + 1)) (traj q t0 dt u0 (p s0) (k + 1)) (p s0))) q.conds.flatten with hA
    let e : Vec n := fun j => if j = i then 1 else 0
    let g : ℕ → Vec n := fun j => if j = k then fun l => -mulVec A e l else 0
    have hrow : ∀ l, l ∈ q.conds.flatten → mulVec A e l = 0 := by
      intro l hl
      have hne : l ≠ i := fun h => hi' (h ▸ hl)
      simp [mulVec, hA, elim, hl, e, hne]
    have hk1 : adjoint q t0 dt u0 (p s0) g k = e := by
      have hb : (fun l => if l ∈ q.conds.flatten then 0 else -g k l) = mulVec A e := by
        funext l
        by_cases hl : l ∈ q.conds.flatten
        · rw [if_pos hl, hrow l hl]
        · rw [if_neg hl]
          simp [g]
      unfold adjoint
      rw [hb]
      exact hinv k (by omega) e
    have hk2 : ∀ j, j < N → j ≠ k → adjoint q t0 dt u0 (p s0) g j = 0 := by
      intro j hj hne
      have hb : (fun l => if l ∈ q.conds.flatten then 0 else -g j l) =
          mulVec (elim (transpose (q.K (time t0 dt (j + 1)) (traj q t0 dt u0 (p s0) (j + 1)) (p s0))) q.conds.flatten) 0 := by
        funext l
        simp [g, hne, mulVec]
      unfold adjoint
      rw [hb]
      exact hinv j hj 0
    have hz := (right_iff hF g).1 (h g)
    rw [sum_eq_single k] at hz
    · rw [hk1] at hz
      simpa [e, dotProduct] using hz
    · intro j hj hne
      rw [hk2 j (mem_range.1 hj) hne, zero_dotProduct]
    · intro hn
      exact absurd (mem_range.2 (by omega)) hn
  · intro hf g
    exact C96_free_partial hF hf (linearObjective g) g (linear_gradient g _)

/-- **C96, one objective, refuted**: where a contact force on a free dof changes, some objective of the displacements gets a wrong derivative. -/
theorem C96_wrong (hF : ContactFamily q t0 dt u0 N p p' u' f f' s0) (k : ℕ) (h1 : 1 ≤ k) (hk : k ≤ N) (i : Fin n) (hi : ¬ Ess q.conds i) (hf : f' k i ≠ 0) :
    ∃ g, ¬ Right q t0 dt u0 N p p' s0 g := by
  by_contra h
  push Not at h
  exact hf ((C96_iff hF).1 h k h1 hk i hi)

end

/-! ### Example

One dof with stiffness 1 pushed by the load `p < 0` against a penalty contact of stiffness 3: `u - p + 3 u = 0`. -/

def exQ : Problem 1 1 where
  conds := []
  residual := fun _ u p => ![u 0 - p 0]
  K := fun _ _ _ => ![![1]]
  P := fun _ _ _ => ![![-1]]
  solve := fun _ p _ => ![p 0 / 4]
  linear := fun _ b => b

theorem ex_family (s0 : ℝ) : ContactFamily exQ 0 (fun _ => 1) 0 1 (fun s _ => s) (fun _ => 1) (fun _ => ![1 / 4]) (fun _ s => ![3 * (s / 4)]) (fun _ => ![3 / 4]) s0 where
  dp := hasDerivAt_pi.2 fun _ => hasDerivAt_id s0
  du := fun k h1 hk => by
    obtain rfl : k = 1 := by omega
    refine hasDerivAt_pi.2 fun i => ?_
    fin_cases i
    exact (hasDerivAt_id s0).div_const 4
  df := fun k _ _ => by
    refine hasDerivAt_pi.2 fun i => ?_
    fin_cases i
    show HasDerivAt (fun s => 3 * (s / 4)) (3 / 4) s0
    have := ((hasDerivAt_id s0).div_const 4).const_mul 3
    rw [show (3 : ℝ) / 4 = 3 * (1 / 4) by norm_num]
    exact this
  eq := fun k h1 hk i _ => Filter.Eventually.of_forall fun s => by
    obtain rfl : k = 1 := by omega
    fin_cases i
    simp [exQ, traj]
    ring
  bc := fun k _ _ i hi => by simp [Ess, exQ] at hi
  deriv := fun k h1 _ => by
    let L : (Vec 1 × Vec 1) →L[ℝ] Vec 1 := ContinuousLinearMap.fst ℝ (Vec 1) (Vec 1) - ContinuousLinearMap.snd ℝ (Vec 1) (Vec 1)
    refine ⟨L, ?_, fun v w => ?_⟩
    · have e : (fun z : Vec 1 × Vec 1 => exQ.residual (time 0 (fun _ => 1) k) z.1 z.2) = fun z => L z := by
        funext z i
        fin_cases i
        simp [exQ, L]
      rw [e]
      exact L.hasFDerivAt
    · funext i
      fin_cases i
      simp [L, exQ, mulVec, mulP]
      ring
  exact := fun k _ _ b => by
    funext i
    fin_cases i
    simp [exQ, mulVec, elim, transpose]

/-- The displacement of the dof gets the derivative 1 of the body without contact instead of 1/4. -/
example (s0 : ℝ) : ∃ g, ¬ Right exQ 0 (fun _ => 1) 0 1 (fun s _ => s) (fun _ => 1) s0 g :=
  C96_wrong (ex_family s0) 1 le_rfl le_rfl 0 (by simp [Ess, exQ]) (by norm_num)

end Serac.C96
