import Verif.Model.StaticAdjoint
import Verif.Props.C29
/-!
# C59: gradients of a quasi-static analysis

Spec.  A `Family` is an analysis of `N` steps for every value of a real number `s`: the code's displacements `u k s` at the end of step `k` for parameter `p s`, which solve the
equations on the free dofs and keep the prescribed values on the others.  The claim is about derivatives with respect to `s` of functions of displacements and reactions.
-/

noncomputable section
namespace Serac.C59
open Serac.Elim
open Serac.Adj (transpose mulVecT)
open Serac.StaticAdj
open Serac.C29 (Ess mulVecT_dot)
open scoped Matrix
open Finset

variable {n m : ℕ}

/-- Time at the end of step `k`. -/
def time (t0 : ℝ) (dt : ℕ → ℝ) (k : ℕ) : ℝ := t0 + ∑ i ∈ range k, dt i

/-- Displacement at the end of step `k`. -/
def traj (q : Problem n m) (t0 : ℝ) (dt : ℕ → ℝ) (u0 : Vec n) (p : Vec m) : ℕ → Vec n
  | 0 => u0
  | k + 1 => q.solve (time t0 dt (k + 1)) p (traj q t0 dt u0 p k)

def steps (dt : ℕ → ℝ) (N : ℕ) : List ℝ := (List.range N).map dt

/-- `A x` for the derivative with respect to the parameter. -/
def mulP (A : Fin n → Fin m → ℝ) (x : Vec m) : Vec n := fun i => ∑ j, A i j * x j

structure Family (q : Problem n m) (t0 : ℝ) (dt : ℕ → ℝ) (u0 : Vec n) (N : ℕ) (p : ℝ → Vec m) (p' : Vec m) (u' : ℕ → Vec n) (s0 : ℝ) : Prop where
  dp : HasDerivAt p p' s0
  du : ∀ k, 1 ≤ k → k ≤ N → HasDerivAt (fun s => traj q t0 dt u0 (p s) k) (u' k) s0
  /-- equilibrium on the free dofs -/
  eq : ∀ k, 1 ≤ k → k ≤ N → ∀ i, ¬ Ess q.conds i → ∀ᶠ s in nhds s0, q.residual (time t0 dt k) (traj q t0 dt u0 (p s) k) (p s) i = 0
  /-- prescribed values do not depend on the parameter -/
  bc : ∀ k, 1 ≤ k → k ≤ N → ∀ i, Ess q.conds i → ∀ᶠ s in nhds s0, traj q t0 dt u0 (p s) k i = traj q t0 dt u0 (p s0) k i
  /-- assembled derivatives -/
  deriv : ∀ k, 1 ≤ k → k ≤ N → ∃ L : (Vec n × Vec m) →L[ℝ] Vec n,
    HasFDerivAt (fun z : Vec n × Vec m => q.residual (time t0 dt k) z.1 z.2) L (traj q t0 dt u0 (p s0) k, p s0) ∧
    ∀ v w, L (v, w) = mulVec (q.K (time t0 dt k) (traj q t0 dt u0 (p s0) k) (p s0)) v + mulP (q.P (time t0 dt k) (traj q t0 dt u0 (p s0) k) (p s0)) w
  /-- the linear solver solves the adjoint systems -/
  exact : ∀ k, 1 ≤ k → k ≤ N → ∀ b,
    let A := (applyAll q.conds 0 (transpose (q.K (time t0 dt k) (traj q t0 dt u0 (p s0) k) (p s0)), 0)).1
    mulVec A (q.linear A b) = b

/-! ### Forward -/

/-- The parts of the state that the forward analysis leaves and the adjoint pass does not change, with the position `k` of the pass. -/
structure At (q : Problem n m) (t0 : ℝ) (dt : ℕ → ℝ) (u0 : Vec n) (p : Vec m) (N k : ℕ) (s : State n m) : Prop where
  cycle : s.cycle = k
  time : s.time = time t0 dt k
  checkpoints : s.checkpoints = (List.range (N + 1)).map (traj q t0 dt u0 p)
  timesteps : s.timesteps = steps dt N
  maxCycle : s.maxCycle = N
  maxTime : s.maxTime = C59.time t0 dt N

theorem forward_append (q : Problem n m) (p : Vec m) (l : List ℝ) (d : ℝ) (s : State n m) : forward q p (l ++ [d]) s = advance q p d (forward q p l s) := by
  induction l generalizing s with
  | nil => rfl
  | cons a l ih => exact ih _

/-- **Forward analysis**: every step is solved at its own end time and kept; the reactions are the residual of the last step. -/
theorem C59_forward (q : Problem n m) (t0 : ℝ) (dt : ℕ → ℝ) (u0 : Vec n) (p : Vec m) (N : ℕ) :
    let s : State n m := forward q p (steps dt N) (start t0 u0)
    At q t0 dt u0 p N N s ∧ s.disp = traj q t0 dt u0 p N ∧ (0 < N → s.reactions = q.residual (time t0 dt N) (traj q t0 dt u0 p N) p) := by
  induction N with
  | zero => exact ⟨⟨rfl, by simp [forward, start, steps, time], rfl, rfl, rfl, by simp [forward, start, steps, time]⟩, rfl, fun h => absurd h (lt_irrefl _)⟩
  | succ N ih =>
    obtain ⟨h, hd, -⟩ := ih
    intro s
    have hs : s = advance q p (dt N) (forward q p (steps dt N) (start t0 u0)) := by
      simp only [s, steps, List.range_succ, List.map_append, List.map_cons, List.map_nil]
      exact forward_append _ _ _ _ _
    generalize forward q p (steps dt N) (start t0 u0 : State n m) = f at h hd hs
    have ht : f.time + dt N = time t0 dt (N + 1) := by rw [h.time, time, time, sum_range_succ, add_assoc]
    have hu : q.solve (f.time + dt N) p f.disp = traj q t0 dt u0 p (N + 1) := by rw [ht, hd]; rfl
    have hc : f.cycle + 1 > f.maxCycle := by rw [h.cycle, h.maxCycle]; exact Nat.lt_succ_self N
    rw [hs]
    refine ⟨⟨?_, ht, ?_, ?_, ?_, ?_⟩, hu, fun _ => ?_⟩
    · show f.cycle + 1 = N + 1
      rw [h.cycle]
    · show f.checkpoints ++ [q.solve (f.time + dt N) p f.disp] = _
      rw [hu, h.checkpoints, List.range_succ (n := N + 1), List.map_append]
      rfl
    · show (if f.cycle + 1 > f.maxCycle then f.timesteps ++ [dt N] else f.timesteps) = _
      rw [if_pos hc, h.timesteps, steps, steps, List.range_succ, List.map_append]
      rfl
    · show (if f.cycle + 1 > f.maxCycle then f.cycle + 1 else f.maxCycle) = _
      rw [if_pos hc, h.cycle]
    · show (if f.cycle + 1 > f.maxCycle then f.time + dt N else f.maxTime) = _
      rw [if_pos hc, ht]
    · show q.residual (f.time + dt N) (q.solve (f.time + dt N) p f.disp) p = _
      rw [hu, ht]

/-! ### One step back -/

/-- One reverse step from position `k + 1`. -/
theorem reverse_at (q : Problem n m) (t0 : ℝ) (dt : ℕ → ℝ) (u0 : Vec n) (p : Vec m) (N k : ℕ) (hk : k < N) (s : State n m) (h : At q t0 dt u0 p N (k + 1) s) :
    ∃ s', reverse q p s = some s' ∧ At q t0 dt u0 p N k s' ∧ s'.disp = traj q t0 dt u0 p (k + 1) ∧ s'.timeEnd = time t0 dt (k + 1) ∧
      s'.load = (applyAll q.conds 0 (transpose (q.K (time t0 dt (k + 1)) (traj q t0 dt u0 p (k + 1)) p), s.load)).2 ∧
      s'.adj = q.linear (applyAll q.conds 0 (transpose (q.K (time t0 dt (k + 1)) (traj q t0 dt u0 p (k + 1)) p), s.load)).1
        (applyAll q.conds 0 (transpose (q.K (time t0 dt (k + 1)) (traj q t0 dt u0 p (k + 1)) p), s.load)).2 := by
  have hck : s.checkpoints[k + 1]? = some (traj q t0 dt u0 p (k + 1)) := by
    rw [h.checkpoints, List.getElem?_map, List.getElem?_range (by omega)]
    rfl
  have hdt : s.timesteps.getD k 0 = dt k := by
    rw [h.timesteps, steps, List.getD_eq_getElem?_getD, List.getElem?_map, List.getElem?_range hk]
    rfl
  have hlen : ¬ k + 1 > s.timesteps.length := by
    rw [h.timesteps, steps, List.length_map, List.length_range]
    omega
  have hrev : reverse q p s = some { s with
      cycle := k
      disp := traj q t0 dt u0 p (k + 1)
      load := (applyAll q.conds 0 (transpose (q.K s.time (traj q t0 dt u0 p (k + 1)) p), s.load)).2
      adj := q.linear (applyAll q.conds 0 (transpose (q.K s.time (traj q t0 dt u0 p (k + 1)) p), s.load)).1
        (applyAll q.conds 0 (transpose (q.K s.time (traj q t0 dt u0 p (k + 1)) p), s.load)).2
      timeEnd := s.time
      time := s.time - s.timesteps.getD k 0 } := by
    rw [reverse, if_neg (by rw [h.cycle]; omega)]
    dsimp only
    rw [h.cycle, Nat.add_sub_cancel, if_neg hlen, hck]
  refine ⟨_, hrev, ?_, ?_, ?_, ?_, ?_⟩
  · refine ⟨rfl, ?_, h.checkpoints, h.timesteps, h.maxCycle, h.maxTime⟩
    show s.time - s.timesteps.getD k 0 = _
    rw [h.time, hdt, time, time, sum_range_succ]
    ring
  · rfl
  · exact h.time
  · show (applyAll q.conds 0 (transpose (q.K s.time _ p), s.load)).2 = _
    rw [h.time]
  · show q.linear (applyAll q.conds 0 (transpose (q.K s.time _ p), s.load)).1 (applyAll q.conds 0 (transpose (q.K s.time _ p), s.load)).2 = _
    rw [h.time]

theorem multTranspose_dot (A : Fin n → Fin m → ℝ) (x : Vec n) (y : Vec m) : multTranspose A x ⬝ᵥ y = x ⬝ᵥ mulP A y := by
  simp only [multTranspose, mulP, dotProduct, sum_mul, mul_sum]
  rw [sum_comm]
  exact sum_congr rfl fun j _ => sum_congr rfl fun i _ => by ring

section
variable {q : Problem n m} {t0 : ℝ} {dt : ℕ → ℝ} {u0 : Vec n} {N : ℕ} {p : ℝ → Vec m} {p' : Vec m} {u' : ℕ → Vec n} {s0 : ℝ}

/-- Displacements of constrained dofs do not vary. -/
theorem Family.zero (hF : Family q t0 dt u0 N p p' u' s0) (k : ℕ) (h1 : 1 ≤ k) (hk : k ≤ N) (i : Fin n) (hi : Ess q.conds i) : u' k i = 0 := by
  exact (hasDerivAt_pi.1 (hF.du k h1 hk) i).unique ((hasDerivAt_const s0 (traj q t0 dt u0 (p s0) k i)).congr_of_eventuallyEq (hF.bc k h1 hk i hi))

/-- What one reverse step contributes, whatever load it finds. -/
theorem contribution (hF : Family q t0 dt u0 N p p' u' s0) (k : ℕ) (hk : k < N) (s : State n m) (h : At q t0 dt u0 (p s0) N (k + 1) s) :
    ∃ s', reverse q (p s0) s = some s' ∧ At q t0 dt u0 (p s0) N k s' ∧ s'.disp = traj q t0 dt u0 (p s0) (k + 1) ∧ s'.timeEnd = time t0 dt (k + 1) ∧
      (timestepSensitivity q (p s0) s').sens ⬝ᵥ p' = -(s.load ⬝ᵥ u' (k + 1)) ∧
      ∀ j, 1 ≤ j → j ≤ N → s'.load ⬝ᵥ u' j = s.load ⬝ᵥ u' j := by
  obtain ⟨s', hs, hat, hd, hte, hl, ha⟩ := reverse_at q t0 dt u0 (p s0) N k hk s h
  refine ⟨s', hs, hat, hd, hte, ?_, fun j h1 hj => ?_⟩
  · show multTranspose (q.P s'.timeEnd s'.disp (p s0)) s'.adj ⬝ᵥ p' = _
    rw [hd, hte, ha, multTranspose_dot]
    obtain ⟨L, hL1, hL2⟩ := hF.deriv (k + 1) (by omega) (by omega)
    have hq := C29.C29_quasistatic q.conds q.linear (q.K (time t0 dt (k + 1)) (traj q t0 dt u0 (p s0) (k + 1)) (p s0)) (fun i => s.load i * (-1))
      (mulP (q.P (time t0 dt (k + 1)) (traj q t0 dt u0 (p s0) (k + 1)) (p s0)) p') (fun v => (fun i => s.load i * (-1)) ⬝ᵥ v)
      (fun z => q.residual (time t0 dt (k + 1)) z.1 (p z.2)) (fun s => traj q t0 dt u0 (p s) (k + 1)) (u' (k + 1)) s0 (hF.exact (k + 1) (by omega) (by omega))
      (hF.du (k + 1) (by omega) (by omega)) (hF.bc (k + 1) (by omega) (by omega)) (hF.eq (k + 1) (by omega) (by omega)) ?_ ?_
    · have h2 : HasDerivAt (fun s_1 => (fun i => s.load i * (-1)) ⬝ᵥ traj q t0 dt u0 (p s_1) (k + 1)) ((fun i => s.load i * (-1)) ⬝ᵥ u' (k + 1)) s0 := by
        simp only [dotProduct]
        exact HasDerivAt.fun_sum fun i _ => (hasDerivAt_pi.1 (hF.du (k + 1) (by omega) (by omega)) i).const_mul _
      have h3 := hq.unique h2
      rw [Adj.quasistatic] at h3
      simp only [mul_neg, mul_one, neg_neg] at h3
      rw [h3]
      simp [dotProduct]
    · refine ⟨L.comp ((ContinuousLinearMap.fst ℝ (Vec n) ℝ).prod ((ContinuousLinearMap.toSpanSingleton ℝ p').comp (ContinuousLinearMap.snd ℝ (Vec n) ℝ))), ?_, ?_⟩
      · have hp : HasFDerivAt (fun z : Vec n × ℝ => (z.1, p z.2))
            ((ContinuousLinearMap.fst ℝ (Vec n) ℝ).prod ((ContinuousLinearMap.toSpanSingleton ℝ p').comp (ContinuousLinearMap.snd ℝ (Vec n) ℝ)))
            (traj q t0 dt u0 (p s0) (k + 1), s0) := hasFDerivAt_fst.prodMk (hF.dp.hasFDerivAt.comp (traj q t0 dt u0 (p s0) (k + 1), s0) hasFDerivAt_snd)
        exact HasFDerivAt.comp (g := fun z : Vec n × Vec m => q.residual (time t0 dt (k + 1)) z.1 z.2) (traj q t0 dt u0 (p s0) (k + 1), s0) hL1 hp
      · intro v ds
        show L (v, ds • p') = _
        rw [hL2]
        congr 1
        funext i
        simp only [mulP, Pi.smul_apply, smul_eq_mul, mul_sum]
        exact sum_congr rfl fun j _ => by ring
    · let G : Vec n →L[ℝ] ℝ := LinearMap.toContinuousLinearMap
        { toFun := fun v => (fun i => s.load i * (-1)) ⬝ᵥ v, map_add' := fun x y => dotProduct_add _ x y, map_smul' := fun c x => dotProduct_smul c _ x }
      exact ⟨G, G.hasFDerivAt, fun _ => rfl⟩
  · rw [hl]
    refine sum_congr rfl fun i _ => ?_
    by_cases hi : Ess q.conds i
    · rw [hF.zero j h1 hj i hi, mul_zero, mul_zero]
    · rw [(C26.applyAll_spec q.conds 0 _ _).2 i, if_neg (fun h' => hi (by rwa [List.mem_flatten] at h'))]
      simp

theorem At.set {k : ℕ} {s : State n m} {pp : Vec m} (h : At q t0 dt u0 pp N k s) (g : Vec n) : At q t0 dt u0 pp N k (setAdjointLoad g s) :=
  ⟨h.cycle, h.time, h.checkpoints, h.timesteps, h.maxCycle, h.maxTime⟩

theorem At.sens {k : ℕ} {s : State n m} {pp : Vec m} (h : At q t0 dt u0 pp N k s) (pp' : Vec m) : At q t0 dt u0 pp N k (timestepSensitivity q pp' s) :=
  ⟨h.cycle, h.time, h.checkpoints, h.timesteps, h.maxCycle, h.maxTime⟩

/-- Loads of the steps `k, …, 1`, the load of step `j + 1` being `g j`. -/
def loads (g : ℕ → Vec n) (k : ℕ) : List (Option (Vec n)) := (List.range k).reverse.map fun j => some (g j)

theorem pass_sum (hF : Family q t0 dt u0 N p p' u' s0) (g : ℕ → Vec n) (k : ℕ) (hk : k ≤ N) (s : State n m) (h : At q t0 dt u0 (p s0) N k s) :
    ∃ r, pass q (p s0) (loads g k) s = some r ∧ At q t0 dt u0 (p s0) N 0 r.2 ∧ (0 < k → r.2.disp = traj q t0 dt u0 (p s0) 1) ∧
      (r.1.map (· ⬝ᵥ p')).sum = ∑ j ∈ range k, g j ⬝ᵥ u' (j + 1) := by
  induction k generalizing s with
  | zero => exact ⟨([], s), rfl, h, fun h0 => absurd h0 (lt_irrefl _), rfl⟩
  | succ k ih =>
    obtain ⟨s', hs, hat, hd, -, hsens, -⟩ := contribution hF k (by omega) (setAdjointLoad (g k) s) (h.set (g k))
    obtain ⟨r, hr, hr2, hr3, hr4⟩ := ih (by omega) (timestepSensitivity q (p s0) s') (hat.sens _)
    refine ⟨((timestepSensitivity q (p s0) s').sens :: r.1, r.2), ?_, hr2, fun _ => ?_, ?_⟩
    · have hl : loads g (k + 1) = some (g k) :: loads g k := by simp [loads, List.range_succ]
      rw [hl, pass]
      dsimp only
      rw [hs]
      dsimp only
      rw [hr]
      rfl
    · cases k with
      | zero =>
        simp only [loads, List.range_zero, List.reverse_nil, List.map_nil, pass, Option.some.injEq] at hr
        rw [← hr]
        exact hd
      | succ k => exact hr3 (Nat.succ_pos k)
    · rw [List.map_cons, List.sum_cons, hsens, hr4, sum_range_succ, add_comm]
      congr 1
      simp [setAdjointLoad, dotProduct]

/-- Spec: `g j` is the derivative of the objective with respect to the displacement of step `j + 1`. -/
def Gradient (J : (Fin N → Vec n) → ℝ) (z : Fin N → Vec n) (g : ℕ → Vec n) : Prop :=
  ∃ L : (Fin N → Vec n) →L[ℝ] ℝ, HasFDerivAt J L z ∧ ∀ v, L v = ∑ j : Fin N, g j ⬝ᵥ v j

/-- **Quasi-static gradient.**  After `N` steps the adjoint pass is defined, and the sum of its sensitivities is the derivative of any objective of the displacements of all
    steps, through the solves, with respect to the parameter. -/
theorem C59_gradient (hF : Family q t0 dt u0 N p p' u' s0) (J : (Fin N → Vec n) → ℝ) (g : ℕ → Vec n)
    (hJ : Gradient J (fun k => traj q t0 dt u0 (p s0) (k + 1)) g) :
    ∃ r, pass q (p s0) (loads g N) (forward q (p s0) (steps dt N) (start t0 u0)) = some r ∧
      HasDerivAt (fun s => J fun k : Fin N => traj q t0 dt u0 (p s) (k + 1)) (r.1.sum ⬝ᵥ p') s0 := by
  obtain ⟨r, hr, -, -, hsum⟩ := pass_sum hF g N (le_refl N) _ (C59_forward q t0 dt u0 (p s0) N).1
  refine ⟨r, hr, ?_⟩
  have hlin : ∀ l : List (Vec m), l.sum ⬝ᵥ p' = (l.map (· ⬝ᵥ p')).sum := by
    intro l
    induction l with
    | nil => simp
    | cons a l ih => rw [List.sum_cons, add_dotProduct, ih, List.map_cons, List.sum_cons]
  rw [hlin, hsum]
  obtain ⟨L, hL1, hL2⟩ := hJ
  have hd : HasDerivAt (fun s => fun k : Fin N => traj q t0 dt u0 (p s) (k + 1)) (fun k : Fin N => u' (k + 1)) s0 :=
    hasDerivAt_pi.2 fun k => hF.du (k + 1) (by omega) (by have := k.2; omega)
  have h := hL1.comp_hasDerivAt s0 hd
  rw [hL2] at h
  rw [← Fin.sum_univ_eq_sum_range fun j => g j ⬝ᵥ u' (j + 1)]
  exact h

/-- **A load that is not set again.**  With an objective of the last step and its load set once before the pass, the sum of the sensitivities is the derivative exactly if the
    contributions of the same load at all earlier steps cancel. -/
theorem C59_stale_wrong (hF : Family q t0 dt u0 (N + 1) p p' u' s0) (J : Vec n → ℝ) (g : Vec n)
    (hJ : ∃ L : Vec n →L[ℝ] ℝ, HasFDerivAt J L (traj q t0 dt u0 (p s0) (N + 1)) ∧ ∀ v, L v = g ⬝ᵥ v) :
    ∃ r, pass q (p s0) (some g :: List.replicate N none) (forward q (p s0) (steps dt (N + 1)) (start t0 u0)) = some r ∧
      (HasDerivAt (fun s => J (traj q t0 dt u0 (p s) (N + 1))) (r.1.map (· ⬝ᵥ p')).sum s0 ↔ ∑ j ∈ range N, g ⬝ᵥ u' (j + 1) = 0) := by
  have key : ∀ k, k ≤ N → ∀ s : State n m, At q t0 dt u0 (p s0) (N + 1) k s → (∀ j, 1 ≤ j → j ≤ N + 1 → s.load ⬝ᵥ u' j = -(g ⬝ᵥ u' j)) →
      ∃ r, pass q (p s0) (List.replicate k none) s = some r ∧ (r.1.map (· ⬝ᵥ p')).sum = ∑ j ∈ range k, g ⬝ᵥ u' (j + 1) := by
    intro k
    induction k with
    | zero => exact fun _ s _ _ => ⟨([], s), rfl, rfl⟩
    | succ k ih =>
      intro hk s hs hl
      obtain ⟨s', hs', hat, -, -, hsens, hload⟩ := contribution hF k (by omega) s hs
      obtain ⟨r, hr, hr2⟩ := ih (by omega) (timestepSensitivity q (p s0) s') (hat.sens _) (fun j h1 h2 => (hload j h1 h2).trans (hl j h1 h2))
      refine ⟨((timestepSensitivity q (p s0) s').sens :: r.1, r.2), ?_, ?_⟩
      · rw [List.replicate_succ, pass]
        dsimp only
        rw [hs']
        dsimp only
        rw [hr]
        rfl
      · rw [List.map_cons, List.sum_cons, hsens, hr2, hl _ (by omega) (by omega), neg_neg, sum_range_succ, add_comm]
  have hset : ∀ (s : State n m) j, (setAdjointLoad g s).load ⬝ᵥ u' j = -(g ⬝ᵥ u' j) := fun s j => by simp [setAdjointLoad, dotProduct]
  generalize hs : forward q (p s0) (steps dt (N + 1)) (start t0 u0 : State n m) = s
  have hat : At q t0 dt u0 (p s0) (N + 1) (N + 1) s := hs ▸ (C59_forward q t0 dt u0 (p s0) (N + 1)).1
  obtain ⟨s', hs', hat', -, -, hsens, hload⟩ := contribution hF N (by omega) (setAdjointLoad g s) (hat.set g)
  obtain ⟨r, hr, hr2⟩ := key N (le_refl N) (timestepSensitivity q (p s0) s') (hat'.sens _) (fun j h1 h2 => (hload j h1 h2).trans (hset s j))
  refine ⟨((timestepSensitivity q (p s0) s').sens :: r.1, r.2), ?_, ?_⟩
  · rw [pass]
    dsimp only
    rw [hs']
    dsimp only
    rw [hr]
    rfl
  · obtain ⟨L, hL1, hL2⟩ := hJ
    have h := hL1.comp_hasDerivAt s0 (hF.du (N + 1) (by omega) (le_refl _))
    rw [hL2] at h
    rw [List.map_cons, List.sum_cons, hsens, hset, neg_neg, hr2]
    constructor
    · intro h'
      have := h'.unique h
      linarith
    · intro h0
      rw [h0, add_zero]
      exact h

/-! ### Reactions -/

/-- The two parts of the sensitivity of a reaction, each read when it is returned: load, step back, both sensitivities. -/
def reactionSensitivity (q : Problem n m) (p : Vec m) (w : Vec n) (s : State n m) : Option (Vec m × Vec m) :=
  (reverse q p (dualAdjointLoad q p w s)).map fun s' => ((timestepSensitivity q p s').sens, (dualSensitivity q p w (timestepSensitivity q p s')).sens)

theorem reaction_iff (hF : Family q t0 dt u0 N p p' u' s0) (k : ℕ) (hk : k < N) (s : State n m) (h : At q t0 dt u0 (p s0) N (k + 1) s) (w : Vec n) :
    ∃ a b, reactionSensitivity q (p s0) w s = some (a, b) ∧
      (HasDerivAt (fun s => w ⬝ᵥ q.residual (time t0 dt (k + 1)) (traj q t0 dt u0 (p s) (k + 1)) (p s)) ((a + b) ⬝ᵥ p') s0 ↔
        mulVecT (q.K (time t0 dt (k + 1)) s.disp (p s0)) w ⬝ᵥ u' (k + 1) =
          mulVecT (q.K (time t0 dt (k + 1)) (traj q t0 dt u0 (p s0) (k + 1)) (p s0)) w ⬝ᵥ u' (k + 1)) := by
  obtain ⟨s', hs, hat, hd, hte, hsens, -⟩ := contribution hF k hk (dualAdjointLoad q (p s0) w s) (h.set _)
  refine ⟨_, _, by rw [reactionSensitivity, hs]; rfl, ?_⟩
  have hb : (dualSensitivity q (p s0) w (timestepSensitivity q (p s0) s')).sens ⬝ᵥ p' =
      w ⬝ᵥ mulP (q.P (time t0 dt (k + 1)) (traj q t0 dt u0 (p s0) (k + 1)) (p s0)) p' := by
    show multTranspose (q.P s'.timeEnd s'.disp (p s0)) w ⬝ᵥ p' = _
    rw [hd, hte, multTranspose_dot]
  have hload : (dualAdjointLoad q (p s0) w s).load ⬝ᵥ u' (k + 1) = -(mulVecT (q.K (time t0 dt (k + 1)) s.disp (p s0)) w ⬝ᵥ u' (k + 1)) := by
    rw [dualAdjointLoad, h.time]
    simp [setAdjointLoad, dotProduct]
  obtain ⟨L, hL1, hL2⟩ := hF.deriv (k + 1) (by omega) (by omega)
  have hd2 : HasDerivAt (fun s => w ⬝ᵥ q.residual (time t0 dt (k + 1)) (traj q t0 dt u0 (p s) (k + 1)) (p s))
      (w ⬝ᵥ L (u' (k + 1), p')) s0 := by
    have h1 := hL1.comp_hasDerivAt s0 ((hF.du (k + 1) (by omega) (by omega)).prodMk hF.dp)
    simp only [dotProduct]
    exact HasDerivAt.fun_sum fun i _ => (hasDerivAt_pi.1 h1 i).const_mul _
  rw [hL2, dotProduct_add, ← mulVecT_dot] at hd2
  rw [add_dotProduct, hsens, hload, hb, neg_neg]
  constructor
  · intro h'
    have := h'.unique hd2
    linarith
  · intro h'
    rw [h']
    exact hd2

/-- **Reactions of the last step**: the two sensitivities add up to the derivative of any weighted sum of the reactions that the analysis returns. -/
theorem C59_reaction (hF : Family q t0 dt u0 N p p' u' s0) (hN : 0 < N) (w : Vec n) :
    ∃ a b, reactionSensitivity q (p s0) w (forward q (p s0) (steps dt N) (start t0 u0)) = some (a, b) ∧
      HasDerivAt (fun s => w ⬝ᵥ (forward q (p s) (steps dt N) (start t0 u0 : State n m)).reactions) ((a + b) ⬝ᵥ p') s0 := by
  obtain ⟨k, rfl⟩ : ∃ k, N = k + 1 := ⟨N - 1, by omega⟩
  obtain ⟨hat, hd, -⟩ := C59_forward q t0 dt u0 (p s0) (k + 1)
  obtain ⟨a, b, h, hiff⟩ := reaction_iff hF k (by omega) _ hat w
  refine ⟨a, b, h, ?_⟩
  have e : (fun s => w ⬝ᵥ (forward q (p s) (steps dt (k + 1)) (start t0 u0 : State n m)).reactions) =
      fun s => w ⬝ᵥ q.residual (time t0 dt (k + 1)) (traj q t0 dt u0 (p s) (k + 1)) (p s) :=
    funext fun s => by rw [(C59_forward q t0 dt u0 (p s) (k + 1)).2.2 hN]
  rw [e]
  exact hiff.2 (by rw [hd])

/-- **Reactions of earlier steps.**  After stepping back to step `k + 1` the load is computed with the displacement of step `k + 2`: the sensitivities add up to the derivative
    exactly if that makes no difference, as it does for a tangent stiffness that depends on the displacement. -/
theorem C59_reaction_earlier_wrong (hF : Family q t0 dt u0 N p p' u' s0) (k : ℕ) (hk : k + 2 ≤ N) (s s1 : State n m) (h : At q t0 dt u0 (p s0) N (k + 2) s)
    (hs : reverse q (p s0) s = some s1) (w : Vec n) :
    ∃ a b, reactionSensitivity q (p s0) w s1 = some (a, b) ∧
      (HasDerivAt (fun s => w ⬝ᵥ q.residual (time t0 dt (k + 1)) (traj q t0 dt u0 (p s) (k + 1)) (p s)) ((a + b) ⬝ᵥ p') s0 ↔
        mulVecT (q.K (time t0 dt (k + 1)) (traj q t0 dt u0 (p s0) (k + 2)) (p s0)) w ⬝ᵥ u' (k + 1) =
          mulVecT (q.K (time t0 dt (k + 1)) (traj q t0 dt u0 (p s0) (k + 1)) (p s0)) w ⬝ᵥ u' (k + 1)) := by
  obtain ⟨s', hs', hat, hd, -⟩ := reverse_at q t0 dt u0 (p s0) N (k + 1) (by omega) s h
  rw [hs] at hs'
  obtain rfl := Option.some.inj hs'
  have := reaction_iff hF k (by omega) s1 hat w
  rwa [hd] at this

/-- **Reactions in a second pass.**  `resetAdjointStates` restores time and cycle but not the displacement, so the load is computed with the displacement of the first step. -/
theorem C59_second_pass_wrong (hF : Family q t0 dt u0 (N + 1) p p' u' s0) (g : ℕ → Vec n) (w : Vec n) :
    ∃ r, pass q (p s0) (loads g (N + 1)) (forward q (p s0) (steps dt (N + 1)) (start t0 u0)) = some r ∧
      ∃ a b, reactionSensitivity q (p s0) w (resetAdjoint r.2) = some (a, b) ∧
      (HasDerivAt (fun s => w ⬝ᵥ q.residual (time t0 dt (N + 1)) (traj q t0 dt u0 (p s) (N + 1)) (p s)) ((a + b) ⬝ᵥ p') s0 ↔
        mulVecT (q.K (time t0 dt (N + 1)) (traj q t0 dt u0 (p s0) 1) (p s0)) w ⬝ᵥ u' (N + 1) =
          mulVecT (q.K (time t0 dt (N + 1)) (traj q t0 dt u0 (p s0) (N + 1)) (p s0)) w ⬝ᵥ u' (N + 1)) := by
  obtain ⟨r, hr, hat, hd, -⟩ := pass_sum hF g (N + 1) (le_refl _) _ (C59_forward q t0 dt u0 (p s0) (N + 1)).1
  refine ⟨r, hr, ?_⟩
  have hat' : At q t0 dt u0 (p s0) (N + 1) (N + 1) (resetAdjoint r.2) := ⟨hat.maxCycle, hat.maxTime, hat.checkpoints, hat.timesteps, hat.maxCycle, hat.maxTime⟩
  have := reaction_iff hF N (by omega) _ hat' w
  rwa [show (resetAdjoint r.2).disp = traj q t0 dt u0 (p s0) 1 from hd (Nat.succ_pos N)] at this

/-- A second pass for an objective of the displacements repeats the first. -/
theorem C59_second_pass (hF : Family q t0 dt u0 N p p' u' s0) (g g2 : ℕ → Vec n) :
    ∃ r r2, pass q (p s0) (loads g N) (forward q (p s0) (steps dt N) (start t0 u0)) = some r ∧ pass q (p s0) (loads g2 N) (resetAdjoint r.2) = some r2 ∧
      (r2.1.map (· ⬝ᵥ p')).sum = ∑ j ∈ range N, g2 j ⬝ᵥ u' (j + 1) := by
  obtain ⟨r, hr, hat, -, -⟩ := pass_sum hF g N (le_refl _) _ (C59_forward q t0 dt u0 (p s0) N).1
  have hat' : At q t0 dt u0 (p s0) N N (resetAdjoint r.2) := ⟨hat.maxCycle, hat.maxTime, hat.checkpoints, hat.timesteps, hat.maxCycle, hat.maxTime⟩
  obtain ⟨r2, hr2, -, -, h2⟩ := pass_sum hF g2 N (le_refl _) _ hat'
  exact ⟨r, r2, hr, hr2, h2⟩

/-- **One buffer.**  Both sensitivities are returned as references to the same vector: kept as references, their sum is twice the second. -/
theorem C59_alias_wrong (q : Problem n m) (pp : Vec m) (w : Vec n) (s : State n m) :
    let s1 := timestepSensitivity q pp s
    let s2 := dualSensitivity q pp w s1
    (s2.sens + s2.sens = s1.sens + s2.sens ↔ s1.sens = s2.sens) := by
  intro s1 s2
  constructor
  · intro h
    exact (add_right_cancel h).symm
  · intro h
    rw [h]

end

/-! ### Example

Two dofs, the second held at zero: `R₀ = u₀ + u₁ - t p` and `R₁ = u₀²`, so the reaction is quadratic. -/

def exQ : Problem 2 1 where
  conds := [[1]]
  residual := fun t u p => ![u 0 + u 1 - t * p 0, u 0 ^ 2]
  K := fun _ u _ => ![![1, 1], ![2 * u 0, 0]]
  P := fun t _ _ => ![![-t], ![0]]
  solve := fun t p _ => ![t * p 0, 0]
  linear := fun _ b => b

theorem ex_ess (i : Fin 2) : Ess exQ.conds i ↔ i = 1 := by simp [Ess, exQ]

theorem ex_traj (t0 : ℝ) (dt : ℕ → ℝ) (p : Vec 1) (k : ℕ) (hk : 1 ≤ k) : traj exQ t0 dt 0 p k = ![time t0 dt k * p 0, 0] := by
  obtain ⟨j, rfl⟩ : ∃ j, k = j + 1 := ⟨k - 1, by omega⟩
  rfl

theorem ex_family (t0 : ℝ) (dt : ℕ → ℝ) (N : ℕ) (s0 : ℝ) : Family exQ t0 dt 0 N (fun s _ => s) (fun _ => 1) (fun k => ![time t0 dt k, 0]) s0 where
  dp := hasDerivAt_pi.2 fun _ => hasDerivAt_id s0
  du := fun k h1 _ => by
    simp only [ex_traj t0 dt _ k h1]
    refine hasDerivAt_pi.2 fun i => ?_
    fin_cases i
    · show HasDerivAt (fun s => time t0 dt k * s) (time t0 dt k) s0
      simpa using (hasDerivAt_id s0).const_mul (time t0 dt k)
    · exact hasDerivAt_const _ _
  eq := fun k h1 _ i hi => Filter.Eventually.of_forall fun s => by
    rw [ex_ess] at hi
    rw [ex_traj t0 dt _ k h1]
    fin_cases i
    · simp [exQ]
    · exact absurd rfl hi
  bc := fun k h1 _ i hi => Filter.Eventually.of_forall fun s => by
    rw [ex_ess] at hi
    subst hi
    rw [ex_traj t0 dt _ k h1, ex_traj t0 dt _ k h1]
    rfl
  deriv := fun k h1 _ => by
    generalize traj exQ t0 dt 0 (fun _ => s0) k = u
    generalize time t0 dt k = t
    let P0 : (Vec 2 × Vec 1) →L[ℝ] ℝ := (ContinuousLinearMap.proj (R := ℝ) (φ := fun _ : Fin 2 => ℝ) 0).comp (ContinuousLinearMap.fst ℝ (Vec 2) (Vec 1))
    let P1 : (Vec 2 × Vec 1) →L[ℝ] ℝ := (ContinuousLinearMap.proj (R := ℝ) (φ := fun _ : Fin 2 => ℝ) 1).comp (ContinuousLinearMap.fst ℝ (Vec 2) (Vec 1))
    let P2 : (Vec 2 × Vec 1) →L[ℝ] ℝ := (ContinuousLinearMap.proj (R := ℝ) (φ := fun _ : Fin 1 => ℝ) 0).comp (ContinuousLinearMap.snd ℝ (Vec 2) (Vec 1))
    let L : (Vec 2 × Vec 1) →L[ℝ] Vec 2 := ContinuousLinearMap.pi ![P0 + P1 - t • P2, (2 * u 0) • P0]
    refine ⟨L, ?_, fun v w => ?_⟩
    · rw [hasFDerivAt_pi']
      have p0 : HasFDerivAt (fun z : Vec 2 × Vec 1 => z.1 0) P0 (u, fun _ => s0) := P0.hasFDerivAt
      have p1 : HasFDerivAt (fun z : Vec 2 × Vec 1 => z.1 1) P1 (u, fun _ => s0) := P1.hasFDerivAt
      have p2 : HasFDerivAt (fun z : Vec 2 × Vec 1 => z.2 0) P2 (u, fun _ => s0) := P2.hasFDerivAt
      intro i
      fin_cases i
      · exact (p0.add p1).sub (p2.const_mul t)
      · have e : (fun z : Vec 2 × Vec 1 => exQ.residual t z.1 z.2 1) = fun z => z.1 0 * z.1 0 := funext fun z => by simp [exQ, sq]
        show HasFDerivAt (fun z : Vec 2 × Vec 1 => exQ.residual t z.1 z.2 1) _ _
        rw [e]
        refine (p0.mul p0).congr_fderiv ?_
        refine ContinuousLinearMap.ext fun z => ?_
        simp [L, P0]
        ring
    · funext i
      fin_cases i <;> simp [L, P0, P1, P2, exQ, mulVec, mulP, Fin.sum_univ_two] <;> ring
  exact := fun k h1 _ b => by
    intro A
    have hA : A = fun i j => if i = j then 1 else 0 := by
      funext i j
      show (applyAll _ _ _).1 i j = _
      rw [(C26.applyAll_spec _ _ _ _).1]
      fin_cases i <;> fin_cases j <;> simp [elim, exQ, transpose]
    rw [hA]
    funext i
    simp [mulVec, exQ]

/-- The reaction of the first of two steps of size one: the sensitivities do not add up to its derivative. -/
example (s1 : State 2 1) (h : reverse exQ (fun _ => 1) (forward exQ (fun _ => 1) (steps (fun _ => 1) 2) (start 0 0)) = some s1) :
    ∃ a b, reactionSensitivity exQ (fun _ => 1) ![0, 1] s1 = some (a, b) ∧
      ¬ HasDerivAt (fun s : ℝ => ![0, 1] ⬝ᵥ exQ.residual 1 (traj exQ 0 (fun _ => 1) 0 (fun _ => s) 1) (fun _ => s)) ((a + b) ⬝ᵥ fun _ => 1) 1 := by
  obtain ⟨a, b, hab, hiff⟩ := C59_reaction_earlier_wrong (ex_family 0 (fun _ => 1) 2 1) 0 (le_refl _) _ s1 (C59_forward exQ 0 (fun _ => 1) 0 (fun _ => 1) 2).1 h ![0, 1]
  refine ⟨a, b, hab, fun hd => ?_⟩
  have h1 : time 0 (fun _ => 1) (0 + 1) = 1 := by simp [time]
  rw [h1] at hiff
  have := hiff.1 hd
  rw [ex_traj _ _ _ _ (by norm_num), ex_traj _ _ _ _ (by norm_num)] at this
  simp [exQ, mulVecT, dotProduct, Fin.sum_univ_two, time] at this

end Serac.C59
