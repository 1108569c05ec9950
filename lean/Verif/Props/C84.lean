import Verif.Props.C82
import Verif.Props.C83
import Mathlib.Analysis.SpecialFunctions.Log.Deriv
import Mathlib.Analysis.Calculus.ContDiff.Operations
import Mathlib.Analysis.Calculus.ContDiff.RCLike
/-!
# C84: quasi-static solves of nonlinear solids follow equilibrium paths

The results of C83 for the assembled body of solid mechanics with its own stiffness matrix: materials with continuous moduli, geometric nonlinearities, pressures that follow
the body.  Along a path of stable equilibria (or just regular ones) small enough load steps stay on the path (`C84_follow`); a regular equilibrium lies on a path (`C84_path`); a
supported body at rest is one (`C84_rest`), so that neo-Hookean and Saint Venant-Kirchhoff bodies can be loaded from rest (`C84_load`).  The Newton solves of a
transient step converge near their solution (`C84_stage`), and for small steps their Jacobian is invertible whatever the stiffness (`C84_inertia`).
-/

noncomputable section
namespace Serac.C84
open Serac.Tensor Serac.Transform Serac.Kernels Serac.Solid Serac.Loads Serac.Piola Serac.Deriv Finset Topology
open Serac.C71 (M Shapes)
open Serac.C77 (one dot_one)
open Filter (Eventually Tendsto)
open scoped Matrix

/-! ## Specification -/

section Spec
variable {d : Dim} (L : Loaded d) (s sF : Shapes)

/-- The mesh makes sense: elements, faces and domains exist and are not degenerate. -/
structure Sound : Prop where
  meaning : C71.Meaning L.B.S s
  nondegenerate : C71.Nondegenerate L.B.S s
  domains : C73.Domains L.B
  faces : C75.Meaning L.F sF d
  loads : C75.AllGood L sF

/-- A load changes continuously with time. -/
def LoadGradual : Load d → Prop
  | .traction _ f => ∀ x n i, Continuous fun t => f x n t i
  | .pressure _ f => ∀ x, Continuous (f x)

/-- All loads change continuously with time. -/
def Gradual : Prop := (∀ f ∈ L.B.forces, ∀ p i, Continuous fun t => f.value t p i) ∧ ∀ l ∈ L.loads, LoadGradual l

/-- A load vanishes at a time. -/
def LoadOff (t : ℝ) : Load d → Prop
  | .traction _ f => ∀ x n i, f x n t i = 0
  | .pressure _ f => ∀ x, f x t = 0

/-- All loads vanish at a time. -/
def Off (t : ℝ) : Prop := (∀ f ∈ L.B.forces, ∀ p i, f.value t p i = 0) ∧ ∀ l ∈ L.loads, LoadOff t l

/-- `A` are continuous moduli of the material near the gradients of `u`. -/
def Moduli1 (A : Moduli d) (u : Ode.Vec L.B.N) : Prop := ∀ ee ∈ L.B.S.elements.zipIdx, ∀ Q < L.B.S.E.npts,
  let p := ee.2 * L.B.S.E.npts + Q
  ∀ᶠ G : Fin d.n → Fin d.n → ℝ in 𝓝 (C71.grad L.B.S s (L.B.nodal u) ee.1 Q : Fin d.n → Fin d.n → ℝ),
    (materialFlux (ops d) L.B.S.on (L.B.S.material p) (Matrix.of G)).isSome ∧
    (∀ i m, Diff (fun G : Fin d.n → Fin d.n → ℝ => (materialFlux (ops d) L.B.S.on (L.B.S.material p) (Matrix.of G)).getD 0 i m) (fun G' => ∑ j, ∑ n, A p (Matrix.of G) i m j n * G' j n) G) ∧
    ∀ i m j n, ContinuousAt (fun G : Fin d.n → Fin d.n → ℝ => A p (Matrix.of G) i m j n) G

/-- `u` are equilibria for the boundary values `g` between two times, with acceleration vector `a` (zero unless the user has set it), along which the stiffness with eliminated dofs
is invertible. -/
structure Path (A : Moduli d) (old : Buffer ℝ) (fixed : List (Fin L.B.N)) (g : ℝ → Ode.Vec L.B.N) (a : Ode.Vec L.B.N) (t0 t1 : ℝ) (u : ℝ → Ode.Vec L.B.N) : Prop where
  continuous : ContinuousOn u (Set.Icc t0 t1)
  boundary : ∀ t ∈ Set.Icc t0 t1, ∀ k ∈ fixed, u t k = g t k
  balance : ∀ t ∈ Set.Icc t0 t1, ∀ k ∉ fixed, L.residual t (u t) a k = 0
  material : ∀ t ∈ Set.Icc t0 t1, Moduli1 L s A (u t)
  regular : ∀ t ∈ Set.Icc t0 t1, ∀ w, Elim.mulVec (L.staticJacobian A old fixed t (u t)).1 w = 0 → w = 0

end Spec

variable {d : Dim} {L : Loaded d} {s sF : Shapes} {A : Moduli d} {old : Buffer ℝ}

/-! ## Smoothness of the residual -/

theorem Moduli1.tangent {u : Ode.Vec L.B.N} (h : Moduli1 L s A u) : C77.Tangent L s A u := fun ee hee Q hQ =>
  ⟨(h ee hee Q hQ).mono fun _ hG => hG.1, (h ee hee Q hQ).self_of_nhds.2.1⟩

theorem Moduli1.near {u : Ode.Vec L.B.N} (h : Moduli1 L s A u) : ∀ᶠ w in 𝓝 u, Moduli1 L s A w := by
  have : ∀ᶠ w in 𝓝 u, ∀ ee ∈ L.B.S.elements.zipIdx, ∀ Q ∈ List.range L.B.S.E.npts,
      ∀ᶠ G : Fin d.n → Fin d.n → ℝ in 𝓝 (C71.grad L.B.S s (L.B.nodal w) ee.1 Q : Fin d.n → Fin d.n → ℝ),
    (materialFlux (ops d) L.B.S.on (L.B.S.material (ee.2 * L.B.S.E.npts + Q)) (Matrix.of G)).isSome ∧
    (∀ i m, Diff (fun G : Fin d.n → Fin d.n → ℝ => (materialFlux (ops d) L.B.S.on (L.B.S.material (ee.2 * L.B.S.E.npts + Q)) (Matrix.of G)).getD 0 i m)
      (fun G' => ∑ j, ∑ n, A (ee.2 * L.B.S.E.npts + Q) (Matrix.of G) i m j n * G' j n) G) ∧
    ∀ i m j n, ContinuousAt (fun G : Fin d.n → Fin d.n → ℝ => A (ee.2 * L.B.S.E.npts + Q) (Matrix.of G) i m j n) G := by
    refine C77.eventually_list _ _ _ fun ee hee => C77.eventually_list _ _ _ fun Q hQ => ?_
    exact (C77.gradMap L s ee.1 Q).continuous.continuousAt.eventually (h ee hee Q (List.mem_range.1 hQ)).eventually_nhds
  filter_upwards [this] with w hw ee hee Q hQ
  exact hw ee hee Q (List.mem_range.2 hQ)

theorem cont_list {X ι : Type} [TopologicalSpace X] {x : X} (l : List ι) {f : ι → X → ℝ} (h : ∀ i ∈ l, ContinuousAt (f i) x) : ContinuousAt (fun y => (l.map fun i => f i y).sum) x := by
  induction l with
  | nil => exact continuousAt_const
  | cons i l ih =>
    simp only [List.map_cons, List.sum_cons]
    exact (h i List.mem_cons_self).add (ih fun j hj => h j (List.mem_cons_of_mem _ hj))

theorem work_continuous {l : Load d} (h : LoadGradual l) (u : L.B.S.Nodal) (w : ℕ → ℕ → Fin d.n → ℝ) (t : ℝ) :
    ContinuousAt (fun t => C75.work L.F sF L.B.S.pos L.B.S.on t u w l) t := by
  cases l with
  | traction l f =>
    unfold C75.work C75.integral
    refine cont_list _ fun ee _ => tendsto_finsetSum _ fun Q _ => ContinuousAt.mul continuousAt_const ?_
    exact ContinuousAt.mul continuousAt_const (tendsto_finsetSum _ fun i _ => (h _ _ i).continuousAt.mul continuousAt_const)
  | pressure l f =>
    unfold C75.work C75.integral
    refine cont_list _ fun ee _ => tendsto_finsetSum _ fun Q _ => ContinuousAt.mul continuousAt_const ?_
    exact ((h _).continuousAt.mul continuousAt_const).neg

/-- The residual changes continuously with time. -/
theorem residual_continuous (h : Sound L s sF) (hg : Gradual L) {u : Ode.Vec L.B.N} (hu : C77.Tangent L s A u) (a : Ode.Vec L.B.N) (t : ℝ) : ContinuousAt (fun t => L.residual t u a) t := by
  refine continuousAt_pi.2 fun k => ?_
  have e : (fun t => L.residual t u a k) = fun t => C73.inertia L.B s a (one L k) +
      C73.integral L.B s L.B.S.elements (fun ee Q => ∑ i, ∑ j, C77.fluxes L s u ee Q i j * C73.grd L.B s (one L k) ee.1 Q i j) - C73.load L.B s t (one L k) -
      C75.external L sF t u (one L k) := by
    funext t
    rw [← dot_one (L.residual t u a) k, C75.C75_weak_form h.meaning h.nondegenerate h.domains h.faces h.loads t u a _ _ (C77.tangent_defined hu)]
  rw [e]
  refine (continuousAt_const.sub ?_).sub ?_
  · unfold C73.load C73.integral
    refine cont_list _ fun f hf => cont_list _ fun ee _ => tendsto_finsetSum _ fun Q _ => ContinuousAt.mul continuousAt_const (ContinuousAt.mul continuousAt_const ?_)
    exact tendsto_finsetSum _ fun i _ => (hg.1 f hf _ i).continuousAt.mul continuousAt_const
  · exact cont_list _ fun l hl => work_continuous (hg.2 l hl) _ _ t

/-- A matrix entry from the form. -/
theorem stiff_entry (h : Sound L s sF) (t : ℝ) (u : Ode.Vec L.B.N) (k m : Fin L.B.N) :
    L.stiffMatrix A old t u k m = C77.stiffForm L s A u (one L m) (one L k) - C77.followForm L sF t u (one L m) (one L k) := by
  rw [C77.entry (L := L) (L.stiffMatrix A old t u) k m, (C77.C77_matrix h.meaning h.faces A old old t u u _).1, C77.C77_form h.meaning h.nondegenerate h.faces h.loads]

theorem turn_continuous (J : Fin d.n → Fin (faceDim d) → ℝ) (G : Matrix (Fin d.n) (Fin (faceDim d)) ℝ) (i : Fin d.n) :
    Continuous fun H : Fin d.n → Fin (faceDim d) → ℝ => C77.turn d (J + H) G i := by
  cases d with
  | two => exact continuous_const
  | three =>
    have hc : ∀ (a : Fin 3) (b : Fin 2), Continuous fun H : Fin 3 → Fin 2 → ℝ => J a b + H a b := fun a b => continuous_const.add ((continuous_apply b).comp (continuous_apply a))
    revert i
    change ∀ i : Fin 3, _
    intro i
    fin_cases i
    · exact (((hc 1 0).mul continuous_const).sub ((hc 2 0).mul continuous_const)).add ((continuous_const.mul (hc 2 1)).sub (continuous_const.mul (hc 1 1)))
    · exact (((hc 2 0).mul continuous_const).sub ((hc 0 0).mul continuous_const)).add ((continuous_const.mul (hc 0 1)).sub (continuous_const.mul (hc 2 1)))
    · exact (((hc 0 0).mul continuous_const).sub ((hc 1 0).mul continuous_const)).add ((continuous_const.mul (hc 1 1)).sub (continuous_const.mul (hc 0 1)))

/-- The stiffness is continuous in time and displacement. -/
theorem stiff_continuous (h : Sound L s sF) (hg : Gradual L) {u : Ode.Vec L.B.N} (hu : Moduli1 L s A u) (t : ℝ) :
    ContinuousAt (fun p : ℝ × Ode.Vec L.B.N => L.stiffMatrix A old p.1 p.2) (t, u) := by
  refine continuousAt_pi.2 fun k => continuousAt_pi.2 fun m => ?_
  simp only [stiff_entry h]
  refine ContinuousAt.sub ?_ ?_
  · unfold C77.stiffForm C73.integral
    refine cont_list _ fun ee hee => tendsto_finsetSum _ fun Q hQ => ContinuousAt.mul continuousAt_const (ContinuousAt.mul continuousAt_const ?_)
    refine tendsto_finsetSum _ fun i _ => tendsto_finsetSum _ fun m _ => tendsto_finsetSum _ fun j _ => tendsto_finsetSum _ fun n _ => ?_
    refine ContinuousAt.mul (ContinuousAt.mul ?_ continuousAt_const) continuousAt_const
    have h1 := (hu ee hee Q (mem_range.1 hQ)).self_of_nhds.2.2 i m j n
    have h2 : ContinuousAt (fun p : ℝ × Ode.Vec L.B.N => C77.gradMap L s ee.1 Q p.2) (t, u) := ((C77.gradMap L s ee.1 Q).continuous.comp continuous_snd).continuousAt
    exact ContinuousAt.comp (g := fun G : Fin d.n → Fin d.n → ℝ => A (ee.2 * L.B.S.E.npts + Q) (Matrix.of G) i m j n) (f := fun p : ℝ × Ode.Vec L.B.N => C77.gradMap L s ee.1 Q p.2) h1 h2
  · unfold C77.followForm
    refine cont_list _ fun l hl => ?_
    have hgl := hg.2 l hl
    cases l with
    | traction l f => exact continuousAt_const
    | pressure l f =>
      unfold C77.follow C75.integral
      refine cont_list _ fun ee _ => tendsto_finsetSum _ fun Q _ => ContinuousAt.mul continuousAt_const (ContinuousAt.neg (ContinuousAt.mul ((hgl _).comp continuous_fst).continuousAt ?_))
      refine tendsto_finsetSum _ fun i _ => ContinuousAt.mul ?_ continuousAt_const
      cases L.B.S.on
      · exact continuousAt_const
      · exact ((turn_continuous (C75.tangents L.F sF L.B.S.pos ee.1 Q) _ i).comp ((C77.derMap L sF ee.1 Q).continuous.comp continuous_snd)).continuousAt

theorem derivative (h : Sound L s sF) {u : Ode.Vec L.B.N} (hu : C77.Tangent L s A u) (a : Ode.Vec L.B.N) (t : ℝ) :
    HasFDerivAt (fun w => L.residual t w a) (C83.lin (L.stiffMatrix A old t u)) u := by
  obtain ⟨D, h1, h2⟩ := C77.C77_derivative h.meaning h.nondegenerate h.domains h.faces h.loads t hu a old
  have : D = C83.lin (L.stiffMatrix A old t u) := by
    ext1 w
    rw [h1]
    rfl
  rwa [← this]

/-! ## Paths -/

section Paths
variable {b : Ode.BCs L.B.N} {g : ℝ → Ode.Vec L.B.N} {a : Ode.Vec L.B.N}

theorem Path.branch {fixed : List (Fin L.B.N)} (h : Sound L s sF) (hl : Gradual L) {t0 t1 : ℝ} {u : ℝ → Ode.Vec L.B.N} (hp : Path L s A old fixed g a t0 t1 u) :
    C83.Branch fixed (fun t u => L.residual t u a) (fun t u => L.stiffMatrix A old t u) g (Set.Icc t0 t1) u where
  compact := isCompact_Icc
  continuous := hp.continuous
  boundary := hp.boundary
  balance := hp.balance
  smooth := fun t ht => by
    have : ∀ᶠ p in 𝓝 (t, u t), Moduli1 L s A p.2 := continuousAt_snd.eventually (hp.material t ht).near
    exact (this.mono fun p hp' => derivative h hp'.tangent a p.1).filter_mono nhdsWithin_le_nhds
  jacobian := fun t ht => (stiff_continuous h hl (hp.material t ht) t).continuousWithinAt
  regular := hp.regular

theorem eval_continuous (hg : Ode.Prescribes b g) (hgc : ∀ k ∈ b.allDofs, Continuous fun t => g t k) : Continuous fun t => (b.eval t : Ode.Vec L.B.N) := by
  refine continuous_pi fun k => ?_
  simp only [Ode.eval_apply hg]
  split_ifs with hk
  · exact hgc k hk
  · exact continuous_const

/-- **C84, load stepping.**  Along a path of regular equilibria, small enough steps of the quasi-static solver with small enough tolerances stay as close to the path as one likes and
every solve reports convergence; with or without warm start, whatever the line search, whatever the buffers held before. -/
theorem C84_follow (h : Sound L s sF) (hl : Gradual L) (hg : Ode.Prescribes b g) (hnd : b.allDofs.Nodup) {t0 t1 : ℝ} {u : ℝ → Ode.Vec L.B.N} (hp : Path L s A old b.allDofs g a t0 t1 u)
    {linear : Elim.Mat L.B.N → Elim.Vec L.B.N → Elim.Vec L.B.N} (hlin : C78.Exact linear) {norm : Elim.Vec L.B.N → Newton.Num} (hm : C83.Measures norm) {ε : ℝ} (hε : 0 < ε) :
    ∃ step > 0, ∃ rel > 0, ∃ tol > 0, ∃ start > 0, ∀ (warm : Bool) (o : Newton.Options), (o.relTol : ℝ) ≤ rel → (o.absTol : ℝ) ≤ tol →
      (∃ K, o.minIter ≤ K ∧ K ≤ o.maxIter ∧ (1 / 2 : ℝ) ^ K ≤ o.relTol) → ∀ x : StaticState L.B.N, x.time ∈ Set.Icc t0 t1 → ‖x.u - u x.time‖ ≤ start →
      ∀ dts : List ℝ, (∀ dt ∈ dts, 0 ≤ dt ∧ dt ≤ step) → x.time + dts.sum ≤ t1 →
        let f := L.staticRun A old ⟨warm, linear, norm, o⟩ b a x dts
        f.time = x.time + dts.sum ∧ ‖f.u - u f.time‖ ≤ ε ∧ (dts ≠ [] → f.rep.converged = true) := by
  have hp' : Path L s A old b.allDofs b.eval a t0 t1 u :=
    ⟨hp.continuous, fun t ht k hk => by rw [hp.boundary t ht k hk, Ode.eval_apply hg, if_pos hk], hp.balance, hp.material, hp.regular⟩
  exact C83.C83_track (hp'.branch h hl) hnd (fun t k hk => by rw [Ode.eval_apply hg, if_neg hk]) hlin hm hε

/-- **C84, paths.**  A regular equilibrium lies on a path of regular equilibria, and close to it there are no others. -/
theorem C84_path {fixed : List (Fin L.B.N)} (h : Sound L s sF) (hl : Gradual L) (hgc : Continuous g) {τ : ℝ} {z : Ode.Vec L.B.N} (hz : ∀ k ∈ fixed, z k = g τ k)
    (hb : ∀ k ∉ fixed, L.residual τ z a k = 0) (hA : Moduli1 L s A z) (hreg : ∀ w, Elim.mulVec (L.staticJacobian A old fixed τ z).1 w = 0 → w = 0) :
    ∃ η > 0, ∃ u : ℝ → Ode.Vec L.B.N, u τ = z ∧ Path L s A old fixed g a (τ - η) (τ + η) u ∧
      ∃ δ > 0, ∀ t ∈ Set.Icc (τ - η) (τ + η), ∀ x, ‖x - u t‖ ≤ δ → (∀ k ∈ fixed, x k = g t k) → (∀ k ∉ fixed, L.residual t x a k = 0) → x = u t := by
  have near : ∀ᶠ p : ℝ × Ode.Vec L.B.N in 𝓝 (τ, z), Moduli1 L s A p.2 := continuousAt_snd.eventually hA.near
  obtain ⟨η, hη, u, hu, B⟩ := C83.C83_branch (R := fun t u => L.residual t u a) (J := fun t u => L.stiffMatrix A old t u) hz hb (near.mono fun p hp => derivative h hp.tangent a p.1)
    (near.mono fun p hp => stiff_continuous h hl hp p.1) (near.mono fun p hp => residual_continuous h hl hp.tangent a p.1) hgc hreg
  obtain ⟨δ, hδ, hiso⟩ := C83.C83_isolated B
  -- near the start the moduli exist
  have hc : ContinuousAt u τ := B.continuous.continuousAt (Icc_mem_nhds (by linarith) (by linarith))
  have hm : ∀ᶠ t in 𝓝 τ, Moduli1 L s A (u t) := hc.eventually (by rw [hu]; exact hA.near)
  obtain ⟨η', hη', hball⟩ := (Metric.nhds_basis_closedBall.eventually_iff).1 hm
  have sub : Set.Icc (τ - min η η') (τ + min η η') ⊆ Set.Icc (τ - η) (τ + η) :=
    Set.Icc_subset_Icc (by linarith [min_le_left η η']) (by linarith [min_le_left η η'])
  refine ⟨min η η', lt_min hη hη', u, hu, ⟨B.continuous.mono sub, fun t ht => B.boundary t (sub ht), fun t ht => B.balance t (sub ht), fun t ht => ?_, fun t ht => B.regular t (sub ht)⟩,
    δ, hδ, fun t ht => hiso t (sub ht)⟩
  refine hball ?_
  rw [Metric.mem_closedBall, Real.dist_eq]
  exact (abs_le.2 ⟨by linarith [ht.1], by linarith [ht.2]⟩ : |t - τ| ≤ min η η').trans (min_le_right _ _)

/-! ## From rest -/

/-- The material is free of stress at rest and has the moduli `C` there. -/
def Rest (L : Loaded d) (C : ℕ → M d.n →ₗ[ℝ] M d.n) : Prop := ∀ p, materialFlux (ops d) L.B.S.on (L.B.S.material p) 0 = some 0 ∧
  ∀ (G : M d.n) (i m : Fin d.n), HasDerivAt (fun x : ℝ => (materialFlux (ops d) L.B.S.on (L.B.S.material p) (x • G)).getD 0 i m) (C p G i m) 0

theorem grad_zero (e Q : ℕ) : C71.grad L.B.S s (L.B.nodal 0) e Q = 0 := by
  have h0 : C71.parGrad L.B.S s (L.B.nodal 0) e Q = 0 := by
    funext i k
    simp [C71.parGrad, Body.nodal]
  rw [C71.grad, h0, Matrix.zero_mul]

/-- **C84, rest.**  A supported body free of stress and without loads is in equilibrium, and its stiffness is invertible: it is that of linear elasticity. -/
theorem C84_rest {fixed : List (Fin L.B.N)} {C : ℕ → M d.n →ₗ[ℝ] M d.n} (h : Sound L s sF) {τ : ℝ} (ho : Off L τ) (hr : Rest L C) (hs : C78.Supported L s C fixed)
    (hA : Moduli1 L s A 0) :
    (∀ k, L.residual τ 0 0 k = 0) ∧ (∀ w v, ∑ k, Elim.mulVec (L.stiffMatrix A old τ 0) w k * v k = C73.strain L.B s C w v) ∧
    ∀ w, Elim.mulVec (L.staticJacobian A old fixed τ 0).1 w = 0 → w = 0 := by
  have hload : ∀ v, C73.load L.B s τ v = 0 := by
    intro v
    unfold C73.load C73.integral
    refine List.sum_eq_zero fun x hx => ?_
    obtain ⟨f, hf, rfl⟩ := List.mem_map.1 hx
    refine List.sum_eq_zero fun x hx => ?_
    obtain ⟨ee, -, rfl⟩ := List.mem_map.1 hx
    refine sum_eq_zero fun Q _ => ?_
    simp only [ho.1 f hf, zero_mul, sum_const_zero, mul_zero]
  have hext : ∀ u v, C75.external L sF τ u v = 0 := by
    intro u v
    unfold C75.external
    refine List.sum_eq_zero fun x hx => ?_
    obtain ⟨l, hl, rfl⟩ := List.mem_map.1 hx
    have hlo := ho.2 l hl
    cases l with
    | traction l f =>
      unfold C75.work C75.integral
      refine List.sum_eq_zero fun x hx => ?_
      obtain ⟨ee, -, rfl⟩ := List.mem_map.1 hx
      refine sum_eq_zero fun Q _ => ?_
      simp only [hlo _ _ _, zero_mul, sum_const_zero, mul_zero]
    | pressure l f =>
      unfold C75.work C75.integral
      refine List.sum_eq_zero fun x hx => ?_
      obtain ⟨ee, -, rfl⟩ := List.mem_map.1 hx
      refine sum_eq_zero fun Q _ => ?_
      simp only [hlo _, zero_mul, neg_zero, mul_zero]
  have hfol : ∀ u w v, C77.followForm L sF τ u w v = 0 := by
    intro u w v
    unfold C77.followForm
    refine List.sum_eq_zero fun x hx => ?_
    obtain ⟨l, hl, rfl⟩ := List.mem_map.1 hx
    have hlo := ho.2 l hl
    cases l with
    | traction l f => rfl
    | pressure l f =>
      unfold C77.follow C75.integral
      refine List.sum_eq_zero fun x hx => ?_
      obtain ⟨ee, -, rfl⟩ := List.mem_map.1 hx
      refine sum_eq_zero fun Q _ => ?_
      simp only [hlo _, zero_mul, neg_zero, mul_zero]
  have hstress : C71.Stress L.B.S s (L.B.nodal 0) fun _ _ => 0 := fun ee _ Q _ => by
    rw [grad_zero]
    exact (hr _).1
  have hform : ∀ w v, C77.stiffForm L s A 0 w v = C73.strain L.B s C w v := by
    intro w v
    unfold C77.stiffForm C73.strain C73.integral
    congr 1
    refine List.map_congr_left fun ee hee => sum_congr rfl fun Q hQ => ?_
    congr 2
    refine sum_congr rfl fun i _ => sum_congr rfl fun m _ => ?_
    obtain ⟨D, h1, h2⟩ := (hA ee hee Q (mem_range.1 hQ)).self_of_nhds.2.1 i m
    rw [grad_zero (L := L) (s := s)] at h2
    have hl : HasDerivAt (fun x : ℝ => (x • fun i j => C73.grd L.B s w ee.1 Q i j : Fin d.n → Fin d.n → ℝ)) (fun i j => C73.grd L.B s w ee.1 Q i j) 0 := by
      simpa using (hasDerivAt_id (0 : ℝ)).smul_const (fun i j => C73.grd L.B s w ee.1 Q i j : Fin d.n → Fin d.n → ℝ)
    have h3 := HasFDerivAt.comp_hasDerivAt (0 : ℝ) (by rw [zero_smul]; exact h2) hl
    have h4 := h3.unique ((hr (ee.2 * L.B.S.E.npts + Q)).2 (Matrix.of fun i j => C73.grd L.B s w ee.1 Q i j) i m)
    rw [h1] at h4
    have h5 : C (ee.2 * L.B.S.E.npts + Q) (C73.grd L.B s w ee.1 Q) i m = _ := h4.symm
    rw [h5, sum_mul]
    refine sum_congr rfl fun j _ => ?_
    rw [sum_mul]
    rfl
  have hK : ∀ w v, ∑ k, Elim.mulVec (L.stiffMatrix A old τ 0) w k * v k = C73.strain L.B s C w v := by
    intro w v
    rw [(C77.C77_matrix h.meaning h.faces A old old τ 0 0 w).1, C77.C77_form h.meaning h.nondegenerate h.faces h.loads, hfol, sub_zero, hform]
  refine ⟨fun k => ?_, hK, fun w hw => ?_⟩
  · rw [← dot_one (L.residual τ 0 0) k, C75.C75_weak_form h.meaning h.nondegenerate h.domains h.faces h.loads τ 0 0 _ _ hstress, hload, hext, C78.inertia_zero]
    simp [C73.integral]
  · have hf : ∀ k ∈ fixed, w k = 0 := C26.C26_exact_correction _ fixed w 0 (Submodule.zero_mem _) fun k _ => congrFun hw k
    by_contra hne
    have hp := hs w hf hne
    rw [← hK, sum_eq_zero fun k _ => ?_] at hp
    · exact lt_irrefl _ hp
    · by_cases hk : k ∈ fixed
      · rw [hf k hk, mul_zero]
      · have := congrFun hw k
        rw [Loaded.staticJacobian, C77.elim_free _ fixed w hf] at this
        dsimp only at this
        rw [if_neg hk] at this
        rw [this, Pi.zero_apply, zero_mul]

/-- **C84, loading from rest.**  A supported body with continuous moduli, free of stress at rest, whose loads and boundary values grow continuously from zero: for some time there is a
path of regular equilibria that starts at rest, and on any shorter time small enough steps of the quasi-static solver from rest follow it with any accuracy, all solves converged. -/
theorem C84_load {C : ℕ → M d.n →ₗ[ℝ] M d.n} (h : Sound L s sF) (hl : Gradual L) {τ : ℝ} (ho : Off L τ) (hr : Rest L C) (hs : C78.Supported L s C b.allDofs) (hA : Moduli1 L s A 0)
    (hg : Ode.Prescribes b g) (hgc : ∀ k ∈ b.allDofs, Continuous fun t => g t k) (hg0 : ∀ k ∈ b.allDofs, g τ k = 0) (hnd : b.allDofs.Nodup)
    {linear : Elim.Mat L.B.N → Elim.Vec L.B.N → Elim.Vec L.B.N} (hlin : C78.Exact linear) {norm : Elim.Vec L.B.N → Newton.Num} (hm : C83.Measures norm) :
    ∃ η > 0, ∃ u : ℝ → Ode.Vec L.B.N, u τ = 0 ∧ Path L s A old b.allDofs g 0 τ (τ + η) u ∧
      ∀ ε > 0, ∃ step > 0, ∃ rel > 0, ∃ tol > 0, ∀ (warm : Bool) (o : Newton.Options), (o.relTol : ℝ) ≤ rel → (o.absTol : ℝ) ≤ tol →
        (∃ K, o.minIter ≤ K ∧ K ≤ o.maxIter ∧ (1 / 2 : ℝ) ^ K ≤ o.relTol) → ∀ (r : Ode.Vec L.B.N) (rep : Newton.Report) (dts : List ℝ), (∀ dt ∈ dts, 0 ≤ dt ∧ dt ≤ step) → dts.sum ≤ η →
          let f := L.staticRun A old ⟨warm, linear, norm, o⟩ b 0 ⟨τ, 0, r, rep⟩ dts
          f.time = τ + dts.sum ∧ ‖f.u - u f.time‖ ≤ ε ∧ (dts ≠ [] → f.rep.converged = true) := by
  obtain ⟨r1, -, r3⟩ := C84_rest (old := old) h ho hr hs hA
  obtain ⟨η, hη, u, hu, hp, -⟩ := C84_path (g := b.eval) (a := 0) (fixed := b.allDofs) h hl (eval_continuous hg hgc) (τ := τ) (z := 0)
    (fun k hk => by rw [Ode.eval_apply hg, if_pos hk, hg0 k hk]; rfl) (fun k _ => r1 k) hA r3
  have sub : Set.Icc τ (τ + η) ⊆ Set.Icc (τ - η) (τ + η) := Set.Icc_subset_Icc (by linarith) le_rfl
  have hp' : Path L s A old b.allDofs g 0 τ (τ + η) u := ⟨hp.continuous.mono sub, fun t ht k hk => by rw [hp.boundary t (sub ht) k hk, Ode.eval_apply hg, if_pos hk],
    fun t ht => hp.balance t (sub ht), fun t ht => hp.material t (sub ht), fun t ht => hp.regular t (sub ht)⟩
  refine ⟨η, hη, u, hu, hp', fun ε hε => ?_⟩
  obtain ⟨step, hstep, rel, hrel, tol, htol, start, hstart, hrun⟩ := C84_follow h hl hg hnd hp' hlin hm hε
  refine ⟨step, hstep, rel, hrel, tol, htol, fun warm o h1 h2 h3 r rep dts hd hsum => ?_⟩
  refine hrun warm o h1 h2 h3 ⟨τ, 0, r, rep⟩ ⟨le_rfl, by linarith⟩ ?_ dts hd (by simpa using hsum)
  dsimp only
  rw [hu, sub_zero, norm_zero]
  exact hstart.le

end Paths

/-! ## Materials -/

section Materials
variable {n : ℕ}

/-- A function of the displacement gradient that is defined near `H` and continuously differentiable there. -/
def Smooth1 (σ : M n → Option (M n)) (H : Fin n → Fin n → ℝ) : Prop :=
  (∀ᶠ G : Fin n → Fin n → ℝ in 𝓝 H, (σ (Matrix.of G)).isSome) ∧ ∀ i j, ContDiffAt ℝ 1 (fun G : Fin n → Fin n → ℝ => (σ (Matrix.of G)).getD 0 i j) H

/-- **C84, moduli.**  Where the flux is continuously differentiable its partial derivatives are continuous moduli. -/
theorem C84_moduli {u : Ode.Vec L.B.N} (h : ∀ ee ∈ L.B.S.elements.zipIdx, ∀ Q < L.B.S.E.npts,
    Smooth1 (materialFlux (ops d) L.B.S.on (L.B.S.material (ee.2 * L.B.S.E.npts + Q))) (C71.grad L.B.S s (L.B.nodal u) ee.1 Q)) : Moduli1 L s (C77.partials L.B.S) u := by
  intro ee hee Q hQ
  obtain ⟨h1, h2⟩ := h ee hee Q hQ
  have h3 : ∀ᶠ G : Fin d.n → Fin d.n → ℝ in 𝓝 (C71.grad L.B.S s (L.B.nodal u) ee.1 Q : Fin d.n → Fin d.n → ℝ), ∀ i m, ContDiffAt ℝ 1
      (fun G : Fin d.n → Fin d.n → ℝ => (materialFlux (ops d) L.B.S.on (L.B.S.material (ee.2 * L.B.S.E.npts + Q)) (Matrix.of G)).getD 0 i m) G := by
    rw [Filter.eventually_all]
    intro i
    rw [Filter.eventually_all]
    intro m
    exact (h2 i m).eventually (by decide)
  filter_upwards [h1, h3] with G g1 g3
  refine ⟨g1, fun i m => ⟨_, fun G' => ?_, ((g3 i m).differentiableAt one_ne_zero).hasFDerivAt⟩, fun i m j l => ?_⟩
  · conv_lhs => rw [C77.basis_sum G']
    simp only [map_sum, map_smul, smul_eq_mul]
    exact sum_congr rfl fun j _ => sum_congr rfl fun l _ => mul_comm _ _
  · exact ((g3 i m).fderiv_right (m := 0) (by norm_num)).continuousAt.clm_apply continuousAt_const

variable {V : Type} [NormedAddCommGroup V] [NormedSpace ℝ V]

/-- Continuously differentiable in every entry. -/
def EC (F : V → M n) (x : V) : Prop := ∀ i j, ContDiffAt ℝ 1 (fun y => F y i j) x

theorem EC.const (C : M n) (x : V) : EC (fun _ => C) x := fun _ _ => contDiffAt_const
theorem EC.add {F G : V → M n} {x : V} (hF : EC F x) (hG : EC G x) : EC (fun y => F y + G y) x := fun i j => (hF i j).add (hG i j)
theorem EC.sub {F G : V → M n} {x : V} (hF : EC F x) (hG : EC G x) : EC (fun y => F y - G y) x := fun i j => (hF i j).sub (hG i j)
theorem EC.transpose {F : V → M n} {x : V} (hF : EC F x) : EC (fun y => (F y)ᵀ) x := fun i j => hF j i
theorem EC.smul {c : V → ℝ} {F : V → M n} {x : V} (hc : ContDiffAt ℝ 1 c x) (hF : EC F x) : EC (fun y => c y • F y) x := fun i j => hc.mul (hF i j)
theorem EC.mul {F G : V → M n} {x : V} (hF : EC F x) (hG : EC G x) : EC (fun y => F y * G y) x := by
  intro i j
  simp only [Matrix.mul_apply]
  exact ContDiffAt.sum fun k _ => (hF i k).mul (hG k j)
theorem EC.trace {F : V → M n} {x : V} (hF : EC F x) : ContDiffAt ℝ 1 (fun y => (F y).trace) x := by
  simp only [Matrix.trace]
  exact ContDiffAt.sum fun k _ => hF k k
theorem EC.det {F : V → M n} {x : V} (hF : EC F x) : ContDiffAt ℝ 1 (fun y => (F y).det) x := by
  simp only [Matrix.det_apply']
  exact ContDiffAt.sum fun σ _ => contDiffAt_const.mul (contDiffAt_prod fun k _ => hF (σ k) k)
theorem EC.inv {F : V → M n} {x : V} (hF : EC F x) (h : (F x).det ≠ 0) : EC (fun y => (F y)⁻¹) x := by
  intro i j
  simp only [Matrix.inv_def, Matrix.smul_apply, smul_eq_mul, Ring.inverse_eq_inv', Matrix.adjugate_apply]
  refine (hF.det.inv h).mul (EC.det fun a b => ?_)
  by_cases hj : a = j
  · subst hj
    simp only [Matrix.updateRow_self]
    exact contDiffAt_const
  · simp only [Matrix.updateRow_ne hj]
    exact hF a b

theorem entries (H : Fin n → Fin n → ℝ) : EC (fun G : Fin n → Fin n → ℝ => (Matrix.of G : M n)) H := fun i j =>
  ((ContinuousLinearMap.proj j : (Fin n → ℝ) →L[ℝ] ℝ).comp (ContinuousLinearMap.proj i : (Fin n → Fin n → ℝ) →L[ℝ] (Fin n → ℝ))).contDiff.contDiffAt

theorem deform (H : Fin n → Fin n → ℝ) : EC (fun G : Fin n → Fin n → ℝ => 1 + Matrix.of G) H := (EC.const 1 H).add (entries H)

theorem smooth_of {σ : M n → Option (M n)} {H : Fin n → Fin n → ℝ} (F : (Fin n → Fin n → ℝ) → M n) (h : ∀ᶠ G : Fin n → Fin n → ℝ in 𝓝 H, σ (Matrix.of G) = some (F G))
    (hF : EC F H) : Smooth1 σ H := by
  refine ⟨?_, fun i j => (hF i j).congr_of_eventuallyEq ?_⟩
  · filter_upwards [h] with G hG
    rw [hG]
    rfl
  · filter_upwards [h] with G hG
    rw [hG]
    rfl

/-- **C84, the flux** is continuously differentiable where the material is, if the deformation is invertible or geometric nonlinearities are off. -/
theorem C84_flux (on : Bool) {σ : M d.n → Option (M d.n)} {H : Fin d.n → Fin d.n → ℝ} (hσ : Smooth1 σ H) (h : on = true → (1 + Matrix.of H).det ≠ 0) :
    Smooth1 (materialFlux (ops d) on σ) H := by
  cases on with
  | false =>
    refine smooth_of (fun G => (σ (Matrix.of G)).getD 0) ?_ hσ.2
    filter_upwards [hσ.1] with G hG
    obtain ⟨τ, hτ⟩ := Option.isSome_iff_exists.1 hG
    unfold materialFlux
    rw [hτ, Option.bind_some, C33.flux_eq (C71.ops_exact d)]
    rfl
  | true =>
    refine smooth_of (fun G => (1 + Matrix.of G).det • ((σ (Matrix.of G)).getD 0 * ((1 + Matrix.of G)⁻¹)ᵀ)) ?_ (EC.smul (deform H).det (EC.mul hσ.2 ((deform H).inv (h rfl)).transpose))
    filter_upwards [hσ.1, C77.near_det (h rfl)] with G hG hd
    obtain ⟨τ, hτ⟩ := Option.isSome_iff_exists.1 hG
    unfold materialFlux
    rw [hτ, Option.bind_some, C33.flux_eq (C71.ops_exact d), if_pos rfl, if_neg hd, Option.getD_some]

/-- **C84, the materials**: linear isotropic everywhere, Saint Venant-Kirchhoff where the deformation is invertible, neo-Hookean where it preserves orientation. -/
theorem C84_materials (K G : ℝ) (H2 : Fin 2 → Fin 2 → ℝ) (H3 : Fin 3 → Fin 3 → ℝ) :
    Smooth1 (fun H => some (Mat.linearIsotropic K G H)) H2 ∧ Smooth1 (fun H => some (Mat.linearIsotropic K G H)) H3 ∧
    ((1 + Matrix.of H2).det ≠ 0 → Smooth1 (Mat.svk2 K G) H2) ∧ ((1 + Matrix.of H3).det ≠ 0 → Smooth1 (Mat.svk3 K G) H3) ∧
    (0 < (1 + Matrix.of H2).det → Smooth1 (Mat.nh2 K G) H2) ∧ (0 < (1 + Matrix.of H3).det → Smooth1 (Mat.nh3 K G) H3) := by
  have lin : ∀ {n : ℕ} (H : Fin n → Fin n → ℝ), Smooth1 (fun H => some (Mat.linearIsotropic K G H)) H := by
    intro n H
    refine smooth_of (fun H => C31.linear (K - 2 / 3 * G) G (Matrix.of H)) (Filter.Eventually.of_forall fun H => by rw [C31.linearIsotropic_eq]) ?_
    unfold C31.linear
    exact EC.add (EC.smul (contDiffAt_const.mul (entries H).trace) (EC.const 1 H)) (EC.smul contDiffAt_const ((entries H).add (entries H).transpose))
  have svk : ∀ {n : ℕ} (det : Mat ℝ n n → ℝ) (_ : ∀ A, det A = Matrix.det A) (H : Fin n → Fin n → ℝ), (1 + Matrix.of H).det ≠ 0 → Smooth1 (Mat.stVenantKirchhoff det K G) H := by
    intro n det hdet H h
    refine smooth_of (fun H => ((1 + Matrix.of H).det)⁻¹ • ((1 + Matrix.of H) * C31.svkS K G (Matrix.of H) * (1 + Matrix.of H)ᵀ)) ?_ ?_
    · filter_upwards [C77.near_det h] with G' hG
      rw [C31.svk_eq det hdet, if_neg hG]
    · refine EC.smul ((deform H).det.inv h) (EC.mul (EC.mul (deform H) ?_) (deform H).transpose)
      have hE : EC (fun H : Fin n → Fin n → ℝ => Mat.greenStrain (Matrix.of H)) H := by
        simp only [C31.greenStrain_eq]
        exact EC.smul contDiffAt_const ((EC.mul (deform H).transpose (deform H)).sub (EC.const 1 H))
      unfold C31.svkS
      exact EC.add (EC.smul (contDiffAt_const.mul hE.trace) (EC.const 1 H))
        (EC.smul contDiffAt_const (hE.sub (EC.smul (by simpa only [div_eq_mul_inv] using hE.trace.mul contDiffAt_const) (EC.const 1 H))))
  have nh : ∀ {n : ℕ} (det : Mat ℝ n n → ℝ) (_ : ∀ A, det A = (1 + A).det - 1) (H : Fin n → Fin n → ℝ), 0 < (1 + Matrix.of H).det → Smooth1 (Mat.neoHookean det K G) H := by
    intro n det hdet H h
    refine smooth_of (fun H => ((1 + Matrix.of H).det)⁻¹ • (((K - 2 / 3 * G) * Real.log (1 + Matrix.of H).det) • (1 : M n) + G • ((1 + Matrix.of H) * (1 + Matrix.of H)ᵀ - 1))) ?_ ?_
    · filter_upwards [C77.near_pos h] with G' hG
      rw [C31.nh_eq det hdet, if_neg (not_le.2 hG)]
    · exact EC.smul ((deform H).det.inv h.ne') (EC.add (EC.smul (contDiffAt_const.mul ((deform H).det.log h.ne')) (EC.const 1 H))
        (EC.smul contDiffAt_const ((EC.mul (deform H) (deform H).transpose).sub (EC.const 1 H))))
  exact ⟨lin H2, lin H3, svk _ C33.exact2.det H2, svk _ C33.exact3.det H3, nh _ C31.det2' H2, nh _ C31.det3' H3⟩

theorem vanish_mul {f g : ℝ → ℝ} {f' : ℝ} (hf : HasDerivAt f f' 0) (h0 : f 0 = 0) (hg : DifferentiableAt ℝ g 0) : HasDerivAt (fun x => f x * g x) (f' * g 0) 0 := by
  have := hf.mul hg.hasDerivAt
  rwa [h0, zero_mul, add_zero] at this

/-- A material free of stress at rest with the moduli `C`, as the functor sees it. -/
theorem C84_rest_flux (on : Bool) {σ : M d.n → Option (M d.n)} {C : M d.n → M d.n} (h0 : C31.StressFree σ) (hC : C31.LinearisesTo σ C) :
    materialFlux (ops d) on σ 0 = some 0 ∧ ∀ (G : M d.n) (i m : Fin d.n), HasDerivAt (fun x : ℝ => (materialFlux (ops d) on σ (x • G)).getD 0 i m) (C G i m) 0 := by
  have hd : (1 + (0 : M d.n)).det ≠ 0 := by rw [add_zero, Matrix.det_one]; exact one_ne_zero
  refine ⟨?_, fun G i m => ?_⟩
  · unfold materialFlux
    rw [h0, Option.bind_some, C33.flux_eq (C71.ops_exact d)]
    cases on
    · rfl
    · rw [if_pos rfl, if_neg hd, Matrix.zero_mul, smul_zero]
  · have hl : ∀ i j, HasDerivAt (fun x : ℝ => (x • G) i j) (G i j) 0 := fun i j => by simpa using (hasDerivAt_id (0 : ℝ)).mul_const (G i j)
    obtain ⟨r, hr, hr'⟩ := hC (fun x => x • G) G (zero_smul _ _) hl
    have hr0 : r 0 = 0 := by
      have := hr.self_of_nhds
      rw [zero_smul, h0] at this
      exact (Option.some.inj this).symm
    cases on with
    | false =>
      refine (hr' i m).congr_of_eventuallyEq ?_
      filter_upwards [hr] with x hx
      unfold materialFlux
      rw [hx, Option.bind_some, C33.flux_eq (C71.ops_exact d)]
      rfl
    | true =>
      have hdef : EC (fun x : ℝ => 1 + x • G) 0 := (EC.const 1 0).add fun i j => (contDiffAt_id.mul contDiffAt_const : ContDiffAt ℝ 1 (fun x : ℝ => x * G i j) 0)
      have hd0 : (1 + (0 : ℝ) • G).det ≠ 0 := by rw [zero_smul]; exact hd
      have hev : ∀ᶠ x : ℝ in 𝓝 0, (1 + x • G).det ≠ 0 := (hdef.det.continuousAt (n := 1)).eventually_ne hd0
      have hprod : HasDerivAt (fun x : ℝ => (1 + x • G).det * ∑ k, r x i k * (1 + x • G)⁻¹ m k) (C G i m) 0 := by
        have h1 : ∀ k, HasDerivAt (fun x : ℝ => r x i k * (1 + x • G)⁻¹ m k) (C G i k * (1 : M d.n) m k) 0 := by
          intro k
          have h1 := vanish_mul (hr' i k) (by rw [hr0]; rfl) ((hdef.inv hd0 m k).differentiableAt one_ne_zero)
          beta_reduce at h1
          rwa [zero_smul, add_zero, inv_one] at h1
        have h2 : HasDerivAt (fun x : ℝ => ∑ k, r x i k * (1 + x • G)⁻¹ m k) (∑ k, C G i k * (1 : M d.n) m k) 0 := HasDerivAt.fun_sum fun k _ => h1 k
        have h3 := vanish_mul h2 (by rw [hr0]; simp) (hdef.det.differentiableAt one_ne_zero)
        beta_reduce at h3
        rw [zero_smul, add_zero, Matrix.det_one, mul_one] at h3
        simp only [mul_comm (∑ k, _)] at h3
        convert h3 using 1
        simp [Matrix.one_apply]
      refine hprod.congr_of_eventuallyEq ?_
      filter_upwards [hr, hev] with x hx hxd
      unfold materialFlux
      rw [hx, Option.bind_some, C33.flux_eq (C71.ops_exact d), if_pos rfl, if_neg hxd, Option.getD_some, Matrix.smul_apply, smul_eq_mul, Matrix.mul_apply]
      rfl

end Materials

/-- Hyperelastic materials with bulk and shear modulus `K`, `G` at rest.  (In two dimensions the code's Saint Venant-Kirchhoff material has other moduli than its parameters say, see C31.) -/
def Hyperelastic : (d : Dim) → ℝ → ℝ → (M d.n → Option (M d.n)) → Prop
  | .two, K, G, σ => σ = Mat.nh2 K G ∨ σ = Mat.svk2 (K + G / 3) G
  | .three, K, G, σ => σ = Mat.nh3 K G ∨ σ = Mat.svk3 K G

/-- At rest they are free of stress, smooth and linearise to the isotropic law. -/
theorem Hyperelastic.rest : ∀ {d : Dim} {K G : ℝ} {σ : M d.n → Option (M d.n)}, Hyperelastic d K G σ →
    C31.StressFree σ ∧ C31.LinearisesTo σ (C73.isotropic d.n K G) ∧ Smooth1 σ 0 := by
  have e2 : 0 < (1 + Matrix.of (0 : Fin 2 → Fin 2 → ℝ)).det := by
    rw [show (Matrix.of (0 : Fin 2 → Fin 2 → ℝ)) = 0 from rfl, add_zero, Matrix.det_one]
    exact one_pos
  have e3 : 0 < (1 + Matrix.of (0 : Fin 3 → Fin 3 → ℝ)).det := by
    rw [show (Matrix.of (0 : Fin 3 → Fin 3 → ℝ)) = 0 from rfl, add_zero, Matrix.det_one]
    exact one_pos
  intro d K G σ h
  cases d with
  | two =>
    rcases h with rfl | rfl
    · exact ⟨(C31.C31_neoHookean K G).1.1, (C31.C31_first_order_partial K G).2.2, (C84_materials K G 0 0).2.2.2.2.1 e2⟩
    · refine ⟨(C31.C31_svk _ G).1.1, ?_, (C84_materials _ G 0 0).2.2.1 e2.ne'⟩
      have h := C31.C31_svk2 (K + G / 3) G
      have e : (C31.linear (K + G / 3 - G) G : M 2 → M 2) = C73.isotropic 2 K G := by
        funext H
        exact (congrArg (fun c => C31.linear c G H) (by ring)).trans (C31.linearIsotropic_eq K G H).symm
      rwa [e] at h
  | three =>
    rcases h with rfl | rfl
    · exact ⟨(C31.C31_neoHookean K G).2.1, (C31.C31_first_order_partial K G).2.1, (C84_materials K G 0 0).2.2.2.2.2 e3⟩
    · exact ⟨(C31.C31_svk K G).2.1, (C31.C31_first_order_partial K G).1, (C84_materials K G 0 0).2.2.2.1 e3.ne'⟩

/-- **C84, hyperelastic bodies.**  A body of neo-Hookean or Saint Venant-Kirchhoff material with the derivatives the code takes from its dual numbers, held so that every node can be
reached from fixed ones, loaded from rest: there is a path of equilibria and small steps of the quasi-static solver follow it. -/
theorem C84_hyperelastic {b : Ode.BCs L.B.N} {g : ℝ → Ode.Vec L.B.N} {K G : ℝ} (hK : 0 < K) (hG : 0 < G) (hmat : ∀ p, Hyperelastic d K G (L.B.S.material p)) (h : Sound L s sF)
    (hpr : C78.Proper L.B s) (hheld : ∀ n, C78.Held L.B b.allDofs n) (hl : Gradual L) {τ : ℝ} (ho : Off L τ) (hg : Ode.Prescribes b g)
    (hgc : ∀ k ∈ b.allDofs, Continuous fun t => g t k) (hg0 : ∀ k ∈ b.allDofs, g τ k = 0) (hnd : b.allDofs.Nodup)
    {linear : Elim.Mat L.B.N → Elim.Vec L.B.N → Elim.Vec L.B.N} (hlin : C78.Exact linear) {norm : Elim.Vec L.B.N → Newton.Num} (hm : C83.Measures norm) (old : Buffer ℝ) :
    ∃ η > 0, ∃ u : ℝ → Ode.Vec L.B.N, u τ = 0 ∧ Path L s (C77.partials L.B.S) old b.allDofs g 0 τ (τ + η) u ∧
      ∀ ε > 0, ∃ step > 0, ∃ rel > 0, ∃ tol > 0, ∀ (warm : Bool) (o : Newton.Options), (o.relTol : ℝ) ≤ rel → (o.absTol : ℝ) ≤ tol →
        (∃ K, o.minIter ≤ K ∧ K ≤ o.maxIter ∧ (1 / 2 : ℝ) ^ K ≤ o.relTol) → ∀ (r : Ode.Vec L.B.N) (rep : Newton.Report) (dts : List ℝ), (∀ dt ∈ dts, 0 ≤ dt ∧ dt ≤ step) → dts.sum ≤ η →
          let f := L.staticRun (C77.partials L.B.S) old ⟨warm, linear, norm, o⟩ b 0 ⟨τ, 0, r, rep⟩ dts
          f.time = τ + dts.sum ∧ ‖f.u - u f.time‖ ≤ ε ∧ (dts ≠ [] → f.rep.converged = true) := by
  refine C84_load h hl ho (C := fun _ => C73.isotropic d.n K G) (fun p => C84_rest_flux _ (hmat p).rest.1 (hmat p).rest.2.1) (C78.C78_supported hK hG hpr hheld)
    (C84_moduli fun ee _ Q _ => ?_) hg hgc hg0 hnd hlin hm
  rw [grad_zero]
  refine C84_flux _ (hmat _).rest.2.2 fun _ => ?_
  rw [show (Matrix.of (0 : M d.n) : M d.n) = 0 from rfl, add_zero, Matrix.det_one]
  exact one_ne_zero

/-! ## Stages of a transient step -/

section Stages
variable {old' : Buffer ℝ} {fixed : List (Fin L.B.N)} {st : Ode.State2 L.B.N}

theorem mass_entry (h : Sound L s sF) (a : Ode.Vec L.B.N) (k m : Fin L.B.N) : L.massMatrix old' a k m = C73.inertia L.B s (one L m) (one L k) := by
  rw [C77.entry (L := L) (L.massMatrix old' a) k m, (C77.C77_matrix h.meaning h.faces (fun _ _ _ _ _ _ => 0) old' old' 0 0 a _).2, C77.C77_mass_form h.meaning]

theorem stage_derivative (h : Sound L s sF) {a : Ode.Vec L.B.N} (hA : C77.Tangent L s A fun m => 1 * st.u m + st.c0 * a m) :
    HasFDerivAt (fun b => L.residual st.time (fun m => 1 * st.u m + st.c0 * b m) b) (C83.lin (L.dynamicMatrix A old old' st a)) a := by
  obtain ⟨D, h1, h2⟩ := Diff.pi (f' := fun b k => Elim.mulVec (L.dynamicMatrix A old old' st a) b k)
    fun k => C77.dynamic_diff h.meaning h.nondegenerate h.domains h.faces h.loads st hA old old' k
  have : D = C83.lin (L.dynamicMatrix A old old' st a) := by
    ext1 w
    rw [h1]
    rfl
  rwa [← this]

theorem affine_continuous (st : Ode.State2 L.B.N) : Continuous fun (a : Ode.Vec L.B.N) (m : Fin L.B.N) => 1 * st.u m + st.c0 * a m :=
  continuous_pi fun m => continuous_const.add (continuous_const.mul (continuous_apply m))

theorem stage_continuous (h : Sound L s sF) (hg : Gradual L) {a : Ode.Vec L.B.N} (hA : Moduli1 L s A fun m => 1 * st.u m + st.c0 * a m) :
    ContinuousAt (fun a => L.dynamicMatrix A old old' st a) a := by
  refine continuousAt_pi.2 fun k => continuousAt_pi.2 fun m => ?_
  unfold Loaded.dynamicMatrix
  simp only [mass_entry h]
  refine (continuousAt_const).add (ContinuousAt.mul continuousAt_const ?_)
  have h1 := stiff_continuous (old := old) h hg hA st.time
  have h2 : ContinuousAt (fun a : Ode.Vec L.B.N => ((st.time, fun m => 1 * st.u m + st.c0 * a m) : ℝ × Ode.Vec L.B.N)) a :=
    (continuous_const.prodMk (affine_continuous st)).continuousAt
  have h3 : ContinuousAt (fun p : ℝ × Ode.Vec L.B.N => L.stiffMatrix A old p.1 p.2 k m) (st.time, fun m => 1 * st.u m + st.c0 * a m) := continuousAt_pi.1 (continuousAt_pi.1 h1 k) m
  exact ContinuousAt.comp (g := fun p : ℝ × Ode.Vec L.B.N => L.stiffMatrix A old p.1 p.2 k m) (f := fun a : Ode.Vec L.B.N => ((st.time, fun m => 1 * st.u m + st.c0 * a m) : ℝ × Ode.Vec L.B.N))
    (x := a) h3 h2

/-- **C84, stages.**  The Newton solve for an acceleration, near one that solves the stage, where the Jacobian with eliminated dofs is invertible: there is no other near it; each iteration
at least halves the error, the solver reports convergence, and the norm it reports bounds the error. -/
theorem C84_stage (h : Sound L s sF) (hg : Gradual L) {g z : Ode.Vec L.B.N} (hz : C82.Stage L fixed st g z) (hA : Moduli1 L s A fun m => st.u m + st.c0 * z m)
    (hreg : ∀ w, Elim.mulVec (L.dynamicJacobian A old old' fixed st z).1 w = 0 → w = 0)
    {linear : Elim.Mat L.B.N → Elim.Vec L.B.N → Elim.Vec L.B.N} (hlin : C78.Exact linear) {norm : Elim.Vec L.B.N → Newton.Num} (hm : C83.Measures norm) :
    ∃ δ > 0, ∃ C > 0, (∀ a, ‖a - z‖ ≤ δ → C82.Stage L fixed st g a → a = z) ∧
      ∀ (warm : Bool) (o : Newton.Options) (rep : Newton.Report) (guess : Ode.Vec L.B.N) (K : ℕ), (∀ k ∈ fixed, guess k = g k) → ‖guess - z‖ ≤ δ →
        o.minIter ≤ K → K ≤ o.maxIter → (1 / 2 : ℝ) ^ K ≤ o.relTol →
        let f := Newton.mult (L.dynamicProblem A old old' ⟨warm, linear, norm, o⟩ fixed st) o guess 0 rep
        f.1.x = L.dynamicSolve A old old' ⟨warm, linear, norm, o⟩ fixed rep st guess ∧
        f.2.converged = true ∧ f.2.finalIter ≤ K ∧ (∀ k ∈ fixed, f.1.x k = g k) ∧ ‖f.1.x - z‖ ≤ (1 / 2) ^ f.2.finalIter * ‖guess - z‖ ∧
        ∃ e : ℝ, f.2.finalNorm = .fin e ∧ ‖f.1.x - z‖ ≤ C * e := by
  have hA' : Moduli1 L s A fun m => 1 * st.u m + st.c0 * z m := by simpa only [one_mul] using hA
  have hc : ContinuousAt (fun (a : Ode.Vec L.B.N) (m : Fin L.B.N) => 1 * st.u m + st.c0 * a m) z := (affine_continuous st).continuousAt
  have B : C83.Branch fixed (fun _ a => L.residual st.time (fun m => 1 * st.u m + st.c0 * a m) a) (fun _ a => L.dynamicMatrix A old old' st a) (fun _ => g) {0} (fun _ => z) := by
    refine ⟨isCompact_singleton, continuousOn_const, fun _ _ => hz.1, fun _ _ k hk => ?_, fun t _ => ?_, fun t _ => ?_, fun _ _ => hreg⟩
    · simpa only [one_mul] using hz.2 k hk
    · have : ∀ᶠ p : ℝ × Ode.Vec L.B.N in 𝓝 (t, z), Moduli1 L s A fun m => 1 * st.u m + st.c0 * p.2 m :=
        (continuousAt_snd (p := (t, z))).eventually (p := fun a : Ode.Vec L.B.N => Moduli1 L s A fun m => 1 * st.u m + st.c0 * a m) (hc.eventually hA'.near)
      exact (this.mono fun p hp => stage_derivative h hp.tangent).filter_mono nhdsWithin_le_nhds
    · exact (ContinuousAt.comp (g := fun a => L.dynamicMatrix A old old' st a) (f := fun p : ℝ × Ode.Vec L.B.N => p.2) (x := (t, z)) (stage_continuous h hg hA') continuousAt_snd).continuousWithinAt
  obtain ⟨N, hN, hb⟩ := hm
  obtain ⟨δ, hδ, C, hC, hs⟩ := C83.C83_solve B hlin hN hb (show (0 : ℝ) < 1 / 2 by norm_num) (by norm_num)
  obtain ⟨δ', hδ', hi⟩ := C83.C83_isolated B
  refine ⟨min δ δ', lt_min hδ hδ', C, hC, fun a ha hsa => hi 0 rfl a (ha.trans (min_le_right _ _)) hsa.1 fun k hk => ?_, fun warm o rep guess K h1 h2 h3 h4 h5 => ?_⟩
  · simpa only [one_mul] using hsa.2 k hk
  · obtain ⟨r1, r2, r3, r4, e, e0, r5, -, -, -, r6⟩ := hs 0 rfl o rep guess 0 K h1 (h2.trans (min_le_left _ _)) h3 h4 (Or.inl h5)
    exact ⟨rfl, r1, r2, r3, r4, e, r5, r6⟩

/-- **C84, inertia.**  If every motion has inertia, then on a compact set of times and displacements, stable or not, there is a bound on the factor `c0` (the square of the time step times a
constant of the integrator) below which the Jacobian of every stage is invertible, whichever dofs are fixed. -/
theorem C84_inertia (h : Sound L s sF) (hg : Gradual L) (hin : ∀ v : Ode.Vec L.B.N, v ≠ 0 → 0 < C73.inertia L.B s v v) {S : Set (ℝ × Ode.Vec L.B.N)} (hS : IsCompact S)
    (hA : ∀ p ∈ S, Moduli1 L s A p.2) :
    ∃ c > 0, ∀ (st : Ode.State2 L.B.N) (a : Ode.Vec L.B.N), (st.time, fun m => st.u m + st.c0 * a m) ∈ S → |st.c0| ≤ c →
      ∀ (fixed : List (Fin L.B.N)) (old' : Buffer ℝ) (w : Ode.Vec L.B.N), Elim.mulVec (L.dynamicJacobian A old old' fixed st a).1 w = 0 → w = 0 := by
  -- inertia of unit vectors
  have hdot : ∀ (X : Elim.Mat L.B.N) (w : Ode.Vec L.B.N), Continuous fun w : Ode.Vec L.B.N => ∑ k, Elim.mulVec X w k * w k := by
    intro X w
    unfold Elim.mulVec
    fun_prop
  have hmass : ∀ (old' : Buffer ℝ) (a w : Ode.Vec L.B.N), ∑ k, Elim.mulVec (L.massMatrix old' a) w k * w k = C73.inertia L.B s w w := by
    intro old' a w
    rw [(C77.C77_matrix h.meaning h.faces (fun _ _ _ _ _ _ => 0) old' old' 0 0 a w).2, C77.C77_mass_form h.meaning]
  have hic : Continuous fun w : Ode.Vec L.B.N => C73.inertia L.B s w w := by
    simp only [← hmass (fun _ => ⟨0, 0, 0, 0⟩) 0]
    exact hdot _ 0
  obtain ⟨μ, hμ, hlow⟩ : ∃ μ > 0, ∀ w : Ode.Vec L.B.N, μ * ‖w‖ ^ 2 ≤ C73.inertia L.B s w w := by
    by_cases hne : (Metric.sphere (0 : Ode.Vec L.B.N) 1).Nonempty
    · obtain ⟨v, hv, hmin⟩ := (isCompact_sphere (0 : Ode.Vec L.B.N) 1).exists_isMinOn hne hic.continuousOn
      have hv0 : v ≠ 0 := fun e => by simp [e] at hv
      refine ⟨_, hin v hv0, fun w => ?_⟩
      by_cases hw : w = 0
      · simp [hw, C78.inertia_zero]
      · have hn : ‖w‖ ≠ 0 := norm_ne_zero_iff.2 hw
        have hmem : ‖w‖⁻¹ • w ∈ Metric.sphere (0 : Ode.Vec L.B.N) 1 := by simp [norm_smul, hn]
        have h1 := hmin hmem
        have e1 : C73.inertia L.B s (‖w‖⁻¹ • w) (‖w‖⁻¹ • w) = ‖w‖⁻¹ * (‖w‖⁻¹ * C73.inertia L.B s w w) := by
          have l1 := C73.inertia_lin (B := L.B) (s := s) ‖w‖⁻¹ 0 w 0 (‖w‖⁻¹ • w)
          have l2 := C73.inertia_lin (B := L.B) (s := s) ‖w‖⁻¹ 0 w 0 w
          rw [zero_smul, add_zero, zero_mul, add_zero] at l1 l2
          rw [l1, C73.inertia_symm w, l2]
        change C73.inertia L.B s v v ≤ C73.inertia L.B s (‖w‖⁻¹ • w) (‖w‖⁻¹ • w) at h1
        rw [e1] at h1
        calc C73.inertia L.B s v v * ‖w‖ ^ 2 ≤ ‖w‖⁻¹ * (‖w‖⁻¹ * C73.inertia L.B s w w) * ‖w‖ ^ 2 := mul_le_mul_of_nonneg_right h1 (sq_nonneg _)
          _ = C73.inertia L.B s w w := by field_simp
    · refine ⟨1, one_pos, fun w => ?_⟩
      have hw : w = 0 := by
        by_contra hw
        exact hne ⟨‖w‖⁻¹ • w, by simp [norm_smul, norm_ne_zero_iff.2 hw]⟩
      simp [hw, C78.inertia_zero]
  -- stiffness on the compact set
  obtain ⟨κ, hκ⟩ : ∃ κ, ∀ p ∈ S, ‖L.stiffMatrix A old p.1 p.2‖ ≤ κ :=
    hS.exists_bound_of_continuousOn fun p hp => (stiff_continuous h hg (hA p hp) p.1).continuousWithinAt
  have hquad : ∀ (X : Elim.Mat L.B.N) (w : Ode.Vec L.B.N), |∑ k, Elim.mulVec X w k * w k| ≤ (L.B.N : ℝ) * L.B.N * ‖X‖ * ‖w‖ ^ 2 := by
    intro X w
    refine (abs_sum_le_sum_abs _ _).trans ?_
    have h1 : ∀ k, |Elim.mulVec X w k * w k| ≤ L.B.N * ‖X‖ * ‖w‖ ^ 2 := by
      intro k
      have h2 : |Elim.mulVec X w k| ≤ L.B.N * (‖X‖ * ‖w‖) := by
        unfold Elim.mulVec
        refine (abs_sum_le_sum_abs _ _).trans ((sum_le_card_nsmul _ _ (‖X‖ * ‖w‖) fun m _ => ?_).trans (by simp))
        rw [abs_mul]
        exact mul_le_mul ((norm_le_pi_norm (X k) m).trans (norm_le_pi_norm X k)) (norm_le_pi_norm w m) (abs_nonneg _) (norm_nonneg _)
      rw [abs_mul]
      calc _ ≤ L.B.N * (‖X‖ * ‖w‖) * ‖w‖ := mul_le_mul h2 (norm_le_pi_norm w k) (abs_nonneg _) (by positivity)
        _ = _ := by ring
    refine (sum_le_card_nsmul _ _ _ fun k _ => h1 k).trans (le_of_eq ?_)
    simp
    ring
  set Λ : ℝ := (L.B.N : ℝ) * L.B.N * |κ| with hΛ
  have hΛ0 : 0 ≤ Λ := by positivity
  refine ⟨μ / (2 * (Λ + 1)), by positivity, fun st a hst hc fixed old' w hw => ?_⟩
  have hf : ∀ k ∈ fixed, w k = 0 := C26.C26_exact_correction _ fixed w 0 (Submodule.zero_mem _) fun k _ => congrFun hw k
  have hzero : ∑ k, Elim.mulVec (L.dynamicMatrix A old old' st a) w k * w k = 0 := by
    refine sum_eq_zero fun k _ => ?_
    by_cases hk : k ∈ fixed
    · rw [hf k hk, mul_zero]
    · have := congrFun hw k
      rw [Loaded.dynamicJacobian, C77.elim_free _ fixed w hf] at this
      dsimp only at this
      rw [if_neg hk] at this
      rw [this, Pi.zero_apply, zero_mul]
  simp only [C82.mulVec_dynamic, add_mul, sum_add_distrib, mul_assoc, ← mul_sum] at hzero
  rw [hmass] at hzero
  have hb := hquad (L.stiffMatrix A old st.time fun j => 1 * st.u j + st.c0 * a j) w
  have hk : ‖L.stiffMatrix A old st.time fun j => 1 * st.u j + st.c0 * a j‖ ≤ |κ| := by
    simp only [one_mul]
    exact (hκ _ hst).trans (le_abs_self _)
  have hb' : |∑ k, Elim.mulVec (L.stiffMatrix A old st.time fun j => 1 * st.u j + st.c0 * a j) w k * w k| ≤ Λ * ‖w‖ ^ 2 :=
    hb.trans (mul_le_mul_of_nonneg_right (mul_le_mul_of_nonneg_left hk (by positivity)) (sq_nonneg _))
  have hprod : |st.c0 * ∑ k, Elim.mulVec (L.stiffMatrix A old st.time fun j => 1 * st.u j + st.c0 * a j) w k * w k| ≤ μ / 2 * ‖w‖ ^ 2 := by
    rw [abs_mul]
    calc _ ≤ μ / (2 * (Λ + 1)) * (Λ * ‖w‖ ^ 2) := mul_le_mul hc hb' (abs_nonneg _) (by positivity)
      _ ≤ μ / (2 * (Λ + 1)) * ((Λ + 1) * ‖w‖ ^ 2) := by gcongr; linarith
      _ = μ / 2 * ‖w‖ ^ 2 := by field_simp
  have hl := hlow w
  have := neg_abs_le (st.c0 * ∑ k, Elim.mulVec (L.stiffMatrix A old st.time fun j => 1 * st.u j + st.c0 * a j) w k * w k)
  have hsq : ‖w‖ ^ 2 ≤ 0 := by
    by_contra hpos
    nlinarith [not_le.1 hpos]
  exact norm_eq_zero.1 (pow_eq_zero_iff two_ne_zero |>.1 (le_antisymm hsq (sq_nonneg _)))

end Stages

/-! ## Example: the square of C77, of neo-Hookean material with geometric nonlinearities, clamped, under growing gravity, traction and a pressure that follows the body -/

section Example

def exBody : Body .two := { C77.exBody with forces := [⟨[0, 1, 2, 3], fun t _ => ![0, -9.81 * t]⟩] }

def exLoads : List (Load .two) := [.traction [1] fun x _ t => ![3 * t, x 1 * t], .pressure [0, 1, 2, 3] fun x t => (5 + x 0) * t]

def exLoaded : Loaded .two := ⟨exBody, C75.exFaces, exLoads⟩

theorem ex_sound : Sound exLoaded C72.exShapes C75.exSF where
  meaning := C77.ex_meaning
  nondegenerate := C77.ex_nondegenerate
  domains := by
    intro f hf e he
    rw [List.mem_singleton.1 hf] at he
    have : e = 0 ∨ e = 1 ∨ e = 2 ∨ e = 3 := by simpa using he
    change e < 4
    omega
  faces := C75.ex_faces
  loads := by
    intro l hl
    refine C75.ex_faces_good _ ?_
    have : l ∈ exLoads := hl
    simp only [exLoads, List.mem_cons, List.not_mem_nil, or_false] at this
    rcases this with rfl | rfl <;> simp [Load.elements]

theorem ex_gradual : Gradual exLoaded := by
  refine ⟨fun f hf p i => ?_, fun l hl => ?_⟩
  · rw [List.mem_singleton.1 hf]
    revert i
    change ∀ i : Fin 2, _
    intro i
    fin_cases i
    · exact continuous_const
    · exact continuous_const.mul continuous_id
  · have : l ∈ exLoads := hl
    simp only [exLoads, List.mem_cons, List.not_mem_nil, or_false] at this
    rcases this with rfl | rfl
    · intro x n i
      revert i
      change ∀ i : Fin 2, _
      intro i
      fin_cases i <;> exact continuous_const.mul continuous_id
    · exact fun x => continuous_const.mul continuous_id

theorem ex_off : Off exLoaded 0 := by
  refine ⟨fun f hf p i => ?_, fun l hl => ?_⟩
  · rw [List.mem_singleton.1 hf]
    revert i
    change ∀ i : Fin 2, _
    intro i
    fin_cases i <;> simp
  · have : l ∈ exLoads := hl
    simp only [exLoads, List.mem_cons, List.not_mem_nil, or_false] at this
    rcases this with rfl | rfl
    · intro x n i
      revert i
      change ∀ i : Fin 2, _
      intro i
      fin_cases i <;> simp
    · exact fun x => mul_zero _

theorem ex_proper : C78.Proper exBody C72.exShapes := ⟨(C78.ex_proper []).nodes, (C78.ex_proper []).slope, (C78.ex_proper []).volume⟩

theorem ex_held (n : Fin 5) : C78.Held exBody C73.exClamp.allDofs n := by
  have : ∀ n : Fin (C73.exBody []).S.nn, C78.Held (C73.exBody []) C73.exClamp.allDofs n → C78.Held exBody C73.exClamp.allDofs n := by
    intro n hn
    induction hn with
    | fixed n h => exact .fixed (B := exBody) n h
    | element e a he ha h ih => exact .element (B := exBody) e a he ha ih
  exact this n (C78.ex_held [] n)

/-- From rest at time zero. -/
example (old : Buffer ℝ) : ∃ η > 0, ∃ u : ℝ → Ode.Vec exLoaded.B.N, u 0 = 0 ∧ Path exLoaded C72.exShapes (C77.partials exBody.S) old C73.exClamp.allDofs (fun _ _ => 0) 0 0 (0 + η) u ∧
    ∀ ε > 0, ∃ step > 0, ∃ o : Newton.Options, ∀ (warm : Bool) (rep : Newton.Report) (dts : List ℝ), (∀ dt ∈ dts, 0 ≤ dt ∧ dt ≤ step) → dts.sum ≤ η →
      ‖(exLoaded.staticRun (C77.partials exBody.S) old ⟨warm, C83.exLinear, fun r => .fin √(∑ k, r k ^ 2), o⟩ C73.exClamp 0 ⟨0, 0, 0, rep⟩ dts).u - u dts.sum‖ ≤ ε := by
  obtain ⟨η, hη, u, h0, hp, hrun⟩ := C84_hyperelastic (L := exLoaded) (s := C72.exShapes) (sF := C75.exSF) (b := C73.exClamp) (g := fun _ _ => 0) (K := 2) (G := 1) (by norm_num) (by norm_num)
    (fun _ => Or.inl rfl) ex_sound ex_proper ex_held ex_gradual ex_off C73.ex_clamp (fun _ _ => continuous_const) (fun _ _ => rfl) (by decide) C83.ex_exact C83.C83_euclid old
  refine ⟨η, hη, u, h0, hp, fun ε hε => ?_⟩
  obtain ⟨step, hstep, rel, hrel, tol, htol, hr⟩ := hrun ε hε
  obtain ⟨K, hK⟩ := exists_pow_lt_of_lt_one hrel (show (1 / 2 : ℝ) < 1 by norm_num)
  refine ⟨step, hstep, ⟨⟨rel, hrel.le⟩, ⟨tol, htol.le⟩, K, 0, 20⟩, fun warm rep dts hd hs => ?_⟩
  obtain ⟨r1, r2, -⟩ := hr warm ⟨⟨rel, hrel.le⟩, ⟨tol, htol.le⟩, K, 0, 20⟩ le_rfl le_rfl ⟨K, Nat.zero_le _, le_rfl, hK.le⟩ 0 rep dts hd hs
  rw [r1, zero_add] at r2
  exact r2

theorem ex_moduli : Moduli1 exLoaded C72.exShapes (C77.partials exBody.S) 0 :=
  C84_moduli (L := exLoaded) fun ee _ Q _ => C84_flux (d := .two) true
    ((C84_materials 2 1 (C71.grad exBody.S C72.exShapes (exBody.nodal 0) ee.1 Q) 0).2.2.2.2.1 (C77.ex_rest ee.1 Q)) fun _ => (C77.ex_rest ee.1 Q).ne'

theorem ex_inertia (v : Ode.Vec 10) (hv : v ≠ 0) : 0 < C73.inertia exBody C72.exShapes v v :=
  lt_of_le_of_ne (C73.inertia_nonneg (B := C73.exBody []) (C73.ex_volumes []) (by simp [C73.exBody, C73.exMesh]) v) fun e => hv (C73.ex_definite [] v e.symm)

/-- Short stages at rest have invertible Jacobians, also without any support. -/
example (old old' : Buffer ℝ) : ∃ c > 0, ∀ st : Ode.State2 exLoaded.B.N, st.time = 0 → st.u = 0 → |st.c0| ≤ c → ∀ w,
    Elim.mulVec (exLoaded.dynamicJacobian (C77.partials exBody.S) old old' [] st 0).1 w = 0 → w = 0 := by
  obtain ⟨c, hc, h⟩ := C84_inertia (L := exLoaded) (s := C72.exShapes) (A := C77.partials exBody.S) (old := old) ex_sound ex_gradual ex_inertia (S := {(0, 0)}) isCompact_singleton (by
    intro p hp
    rw [Set.mem_singleton_iff.1 hp]
    exact ex_moduli)
  refine ⟨c, hc, fun st ht hu hc0 w hw => h st 0 ?_ hc0 [] old' w hw⟩
  rw [Set.mem_singleton_iff, ht, hu]
  simp
  rfl

/-- The Newton solve of such a stage. -/
example (old old' : Buffer ℝ) : ∃ c > 0, ∀ st : Ode.State2 exLoaded.B.N, st.time = 0 → st.u = 0 → |st.c0| ≤ c → ∃ δ > 0, ∀ (rep : Newton.Report) (guess : Ode.Vec exLoaded.B.N), ‖guess‖ ≤ δ →
    ‖exLoaded.dynamicSolve (C77.partials exBody.S) old old' ⟨true, C83.exLinear, fun r => .fin √(∑ k, r k ^ 2), ⟨1 / 1024, 0, 10, 0, 20⟩⟩ [] rep st guess‖ ≤ ‖guess‖ := by
  obtain ⟨c, hc, h⟩ := C84_inertia (L := exLoaded) (s := C72.exShapes) (A := C77.partials exBody.S) (old := old) ex_sound ex_gradual ex_inertia (S := {(0, 0)}) isCompact_singleton (by
    intro p hp
    rw [Set.mem_singleton_iff.1 hp]
    exact ex_moduli)
  refine ⟨c, hc, fun st ht hu hc0 => ?_⟩
  have e0 : (fun m => st.u m + st.c0 * (0 : Ode.Vec exLoaded.B.N) m) = 0 := by
    rw [hu]
    simp
    rfl
  have hrest := (C84_rest (L := exLoaded) (s := C72.exShapes) (old := old) (fixed := C73.exClamp.allDofs) (C := fun _ => C73.isotropic 2 2 1) ex_sound ex_off
    (fun p => C84_rest_flux (d := .two) true (Hyperelastic.rest (d := .two) (Or.inl rfl)).1 (Hyperelastic.rest (d := .two) (Or.inl rfl)).2.1)
    (C78.C78_supported (L := exLoaded) (by norm_num) (by norm_num) ex_proper ex_held) ex_moduli).1
  obtain ⟨δ, hδ, C, -, -, hs⟩ := C84_stage (L := exLoaded) (s := C72.exShapes) (A := C77.partials exBody.S) (old := old) (old' := old') (fixed := []) (st := st) (g := 0) (z := 0) ex_sound ex_gradual
    ⟨by simp, fun k _ => by rw [e0, ht]; exact hrest k⟩ (by rw [e0]; exact ex_moduli)
    (fun w hw => h st 0 (by rw [e0, ht]; rfl) hc0 [] old' w hw) C83.ex_exact C83.C83_euclid
  refine ⟨δ, hδ, fun rep guess hg => ?_⟩
  obtain ⟨r1, -, -, -, r4, -⟩ := hs true ⟨1 / 1024, 0, 10, 0, 20⟩ rep guess 10 (by simp) (by simpa using hg) (Nat.zero_le _) le_rfl (by norm_num)
  rw [← r1]
  simp only [sub_zero] at r4
  exact r4.trans (mul_le_of_le_one_left (norm_nonneg _) (pow_le_one₀ (by norm_num) (by norm_num)))

end Example

end Serac.C84
