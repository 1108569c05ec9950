import Verif.Model.Discontinuous
import Verif.Props.C85
/-!
# C94: design variables per element, and the compliance of a linear elastic body

Spec.  A field of order zero is given by one number per element: `Constant` says that an element hands this number to every quadrature point, with gradient zero, and that what is
integrated against its test function is the weighted sum over the points.  `Own` says that every element has a number of its own.  The compliance of an analysis is the work
of its loads on its displacements; the load vector is minus the residual of the undeformed body.
-/

noncomputable section
namespace Serac.C94
open Finset Serac.Tensor Serac.Transform Serac.Kernels Serac.Piola Serac.Loads Serac.Solid Serac.Deriv
open Serac.StaticAdj (pass forward start)
open Serac.C59 (traj time)
open Serac.C71 (M Shapes)
open Serac.C85
open scoped Topology Matrix

/-! ## Elements of order zero -/

/-- One value per element, the same at all points. -/
structure Constant (E : Elem ℝ) (wt : ℕ → ℝ) : Prop where
  one : E.ndof = 1
  value : ∀ X Q, (E.interp X).value Q = X 0
  grad : ∀ X Q k, (E.interp X).grad Q k = 0
  integral : ∀ f, E.integ f 0 = ∑ Q ∈ range E.npts, wt Q * f.value Q

/-- What the rest of the development needs to know. -/
theorem constant_of {E : Elem ℝ} {φ : ℕ → ℕ → ℝ} {dφ : ℕ → ℕ → ℕ → ℝ} {wt : ℕ → ℝ} (h1 : E.ndof = 1) (hT : C51.Trial E φ dφ) (ht : C51.Test E φ dφ wt) (hφ : ∀ Q, φ Q 0 = 1)
    (hd : ∀ Q k, dφ Q 0 k = 0) : Constant E wt := by
  refine ⟨h1, fun X Q => ?_, fun X Q k => ?_, fun f => ?_⟩
  · rw [hT.value, h1, sum_range_one, hφ, mul_one]
  · rw [hT.grad, h1, sum_range_one, hd, mul_zero]
  · rw [ht f 0 (by omega)]
    exact sum_congr rfl fun Q _ => by simp [hφ, hd]

theorem lobatto_one (s5 x : ℝ) : Nodal.at' (Nodal.lobatto s5 1 x) 0 = 1 ∧ Nodal.at' (Nodal.lobattoDerivative s5 1 x) 0 = 0 := by
  constructor <;> norm_num [Nodal.at', Nodal.lobatto, Nodal.lobattoDerivative]

/-- **C94, elements.**  The discontinuous elements of order zero of all five shapes are constant in this sense, for every rule. -/
theorem C94_elements {P : Type} (s5 : ℝ) (dim q : ℕ) (xi : ℕ → P) (pt wt : ℕ → ℝ) :
    Constant (simplex (simplexL2 dim q xi wt)) wt ∧ Constant (segmentElem (ruleL2 s5 q pt wt)) wt ∧
    Constant (quad (ruleL2 s5 q pt wt)) (fun Q => wt (Q % q) * wt (Q / q)) ∧ Constant (hex (ruleL2 s5 q pt wt)) (fun Q => wt (Q % q) * wt (Q / q % q) * wt (Q / q / q)) := by
  have hl := fun x => lobatto_one s5 x
  refine ⟨?_, ?_, ?_, ?_⟩
  · obtain ⟨h1, h2⟩ := C51.C51_simplex (simplexL2 dim q xi wt)
    exact constant_of rfl h1 h2 (fun Q => by norm_num [simplexL2]) fun Q k => by norm_num [simplexL2]
  · obtain ⟨h1, h2⟩ := C51.C51_segment (ruleL2 s5 q pt wt)
    exact constant_of rfl h1 h2 (fun Q => (hl (pt Q)).1) fun Q k => (hl (pt Q)).2
  · obtain ⟨h1, h2⟩ := C51.C51_quad (ruleL2 s5 q pt wt)
    refine constant_of rfl h1 h2 (fun Q => ?_) fun Q k => ?_
    · simp [C51.quadPhi, SF.Quad.shape, ruleL2, hl]
    · rcases k with _ | k <;> simp [C51.quadGrad, SF.Quad.shapeGrad, ruleL2, hl]
  · obtain ⟨h1, h2⟩ := C51.C51_hex (ruleL2 s5 q pt wt)
    refine constant_of rfl h1 h2 (fun Q => ?_) fun Q k => ?_
    · simp [C51.hexPhi, SF.Hex.shape, ruleL2, hl]
    · rcases k with _ | _ | k <;> simp [C51.hexGrad, SF.Hex.shapeGrad, ruleL2, hl]

/-! ## The field -/

section Field
variable {d : Dim} {V : Variant d} {s sF : Shapes} {φ : ℕ → ℕ → ℝ} {dφ : ℕ → ℕ → ℕ → ℝ} {wt : ℕ → ℝ}

theorem theta_own (hE : Constant V.E wt) (hP : Field V φ dφ) (q : Ode.Vec V.nn) (e Q : ℕ) : theta V φ q e Q = q (V.conn e 0) := by
  have h := hP.trial.value (fun a => q (V.conn e a)) Q
  rw [hE.value] at h
  exact h.symm

/-- **C94, values.**  The material at every point of an element gets the value of the element. -/
theorem C94_value (hE : Constant V.E wt) (hP : Field V φ dφ) (q : Ode.Vec V.nn) {ee : ℕ × ℕ} (hee : ee ∈ V.L.B.S.elements.zipIdx) {Q : ℕ} (hQ : Q < V.L.B.S.E.npts) :
    V.value q (ee.2 * V.L.B.S.E.npts + Q) = q (V.conn ee.1 0) ∧
    (V.body q).B.S.material (ee.2 * V.L.B.S.E.npts + Q) = V.law (ee.2 * V.L.B.S.E.npts + Q) (q (V.conn ee.1 0)) := by
  have e := (value_eq hP q hee hQ).trans (theta_own hE hP q ee.1 Q)
  exact ⟨e, congrArg (V.law _) e⟩

theorem grd_far (k : Fin V.L.B.N) (e Q : ℕ) (he : ∀ a < V.L.B.S.E.ndof, V.L.B.S.conn e a ≠ (V.L.B.num.symm k).1) (i j : Fin d.n) : C73.grd V.L.B s (C77.one V.L k) e Q i j = 0 := by
  unfold C73.grd C71.grad
  rw [Matrix.mul_apply]
  refine sum_eq_zero fun l _ => ?_
  have : C71.parGrad V.L.B.S s (V.L.B.nodal (C77.one V.L k)) e Q i l = 0 := by
    unfold C71.parGrad
    refine sum_eq_zero fun a ha => ?_
    have hne : V.L.B.num (V.L.B.S.conn e a, i) ≠ k := fun h => he a (mem_range.1 ha) (by rw [← h, Equiv.symm_apply_apply])
    simp [Body.nodal, C77.one, hne]
  rw [this, zero_mul]

/-- **C94, locality.**  The residual at a node depends only on the values of the elements that contain the node. -/
theorem C94_local (h : C84.Sound V.L s sF) (hE : Constant V.E wt) (hP : Field V φ dφ) (t : ℝ) (u a : Ode.Vec V.L.B.N) {q q' : Ode.Vec V.nn}
    (hq : ∀ p : Ode.Vec V.nn, p = q ∨ p = q' → ∀ ee ∈ V.L.B.S.elements.zipIdx, ∀ Q ∈ List.range V.L.B.S.E.npts, (flux V (ee.2 * V.L.B.S.E.npts + Q) (at' V s φ u p ee.1 Q)).isSome)
    (k : Fin V.L.B.N) (hk : ∀ e ∈ V.L.B.S.elements, ∀ b < V.L.B.S.E.ndof, V.L.B.S.conn e b = (V.L.B.num.symm k).1 → q (V.conn e 0) = q' (V.conn e 0)) :
    V.residual t u a q k = V.residual t u a q' k := by
  rw [residual_eq h hP a t k (u, q) (hq q (.inl rfl)), residual_eq h hP a t k (u, q') (hq q' (.inr rfl))]
  unfold weak
  congr 3
  refine C73.integral_congr fun ee hee Q _ => ?_
  by_cases hn : ∃ b < V.L.B.S.E.ndof, V.L.B.S.conn ee.1 b = (V.L.B.num.symm k).1
  · obtain ⟨b, hb, e⟩ := hn
    have e2 : theta V φ q ee.1 Q = theta V φ q' ee.1 Q := by rw [theta_own hE hP, theta_own hE hP, hk ee.1 (C71.mem_zipIdx_fst hee) b hb e]
    have e3 : fluxes V s φ (u, q) ee Q = fluxes V s φ (u, q') ee Q := by
      unfold fluxes at'
      rw [e2]
    rw [e3]
  · push Not at hn
    refine sum_congr rfl fun i _ => sum_congr rfl fun j _ => ?_
    rw [grd_far k ee.1 Q hn, mul_zero, mul_zero]

end Field

/-! ## Loads that are their own adjoints -/

section SelfAdjoint
variable {d : Dim} {V : Variant d} {s sF : Shapes} {φ : ℕ → ℕ → ℝ} {dφ : ℕ → ℕ → ℕ → ℝ}
variable {A : Moduli2 d} {B : Slopes d} {old old' : Buffer ℝ} {a : Ode.Vec V.L.B.N} {conds : List (List (Fin V.L.B.N))}
  {solve : ℝ → Ode.Vec V.nn → Ode.Vec V.L.B.N → Ode.Vec V.L.B.N} {linear : Elim.Mat V.L.B.N → Ode.Vec V.L.B.N → Ode.Vec V.L.B.N}
  {t0 : ℝ} {dt : ℕ → ℝ} {u0 : Ode.Vec V.L.B.N} {N : ℕ} {q : Ode.Vec V.nn}

/-- The derivative of the displacements solves the linear systems with the two assembled matrices. -/
theorem moves (hR : Run V s φ A B old old' a conds solve linear t0 dt u0 N q) (h : C84.Sound V.L s sF) (hP : Field V φ dφ) :
    ∃ D : ℕ → Ode.Vec V.nn →L[ℝ] Ode.Vec V.L.B.N, ∀ k, 1 ≤ k → k ≤ N →
      HasFDerivAt (fun q' => traj (V.analysis A B old old' a conds solve linear) t0 dt u0 q' k) (D k) q ∧
      ∀ w, (∀ i ∈ conds.flatten, D k w i = 0) ∧ ∀ i ∉ conds.flatten,
        Elim.mulVec (V.stiffMatrix A old (time t0 dt k) (traj (V.analysis A B old old' a conds solve linear) t0 dt u0 q k) q) (D k w) i =
          -C59.mulP (V.paramMatrix B old' (traj (V.analysis A B old old' a conds solve linear) t0 dt u0 q k) q) w i := by
  have hex : ∀ k, ∃ D : Ode.Vec V.nn →L[ℝ] Ode.Vec V.L.B.N, 1 ≤ k → k ≤ N →
      HasFDerivAt (fun q' => traj (V.analysis A B old old' a conds solve linear) t0 dt u0 q' k) D q ∧
      ∀ w, (∀ i ∈ conds.flatten, D w i = 0) ∧ ∀ i ∉ conds.flatten,
        Elim.mulVec (V.stiffMatrix A old (time t0 dt k) (traj (V.analysis A B old old' a conds solve linear) t0 dt u0 q k) q) (D w) i =
          -C59.mulP (V.paramMatrix B old' (traj (V.analysis A B old old' a conds solve linear) t0 dt u0 q k) q) w i := by
    intro k
    by_cases hk : 1 ≤ k ∧ k ≤ N
    · obtain ⟨h1, hk⟩ := hk
      obtain ⟨U, D, hU, hD, -, huniq, hlin⟩ := C85_branch h hP (hR.tangent k h1 hk) (hR.smooth k h1 hk) old old' (hR.solved k h1 hk).self_of_nhds (hR.regular k h1 hk)
      refine ⟨D, fun _ _ => ⟨hD.congr_of_eventuallyEq ?_, hlin⟩⟩
      have hc : Filter.Tendsto (fun q' => (q', traj (V.analysis A B old old' a conds solve linear) t0 dt u0 q' k)) (𝓝 q)
          (𝓝 (q, traj (V.analysis A B old old' a conds solve linear) t0 dt u0 q k)) := (continuousAt_id.prodMk (hR.near k h1 hk))
      filter_upwards [hc.eventually huniq, hR.solved k h1 hk] with q' h2 h3
      exact h2 h3
    · exact ⟨0, fun h1 h2 => absurd ⟨h1, h2⟩ hk⟩
  choose D hD using hex
  exact ⟨D, hD⟩

theorem mulVec_symm {n : ℕ} {K : Elim.Mat n} (hK : ∀ i j, K i j = K j i) (u v : Elim.Vec n) : ∑ i, Elim.mulVec K u i * v i = ∑ i, Elim.mulVec K v i * u i := by
  simp only [C78.mulVec_apply, sum_mul]
  rw [sum_comm]
  exact sum_congr rfl fun i _ => sum_congr rfl fun j _ => by rw [hK j i]; ring

theorem sum_dot {m : ℕ} (l : List (Fin m → ℝ)) (w : Fin m → ℝ) : l.sum ⬝ᵥ w = (l.map (· ⬝ᵥ w)).sum := by
  induction l with
  | nil => simp
  | cons a l ih => rw [List.sum_cons, add_dotProduct, ih, List.map_cons, List.sum_cons]

/-- **C94, self-adjoint loads.**  If the stiffness of every step is symmetric, the prescribed values are zero and the adjoint load of a step is, on the free dofs, the stiffness times
the displacement, then the adjoint pass returns minus the slope of the stress, against the gradient of the displacement itself: no trace of the adjoint displacement. -/
theorem C94_self_adjoint (hR : Run V s φ A B old old' a conds solve linear t0 dt u0 N q) (h : C84.Sound V.L s sF) (hP : Field V φ dφ) (hl : C78.Exact linear)
    (hK : ∀ k, 1 ≤ k → k ≤ N → ∀ i j, V.stiffMatrix A old (time t0 dt k) (traj (V.analysis A B old old' a conds solve linear) t0 dt u0 q k) q i j =
      V.stiffMatrix A old (time t0 dt k) (traj (V.analysis A B old old' a conds solve linear) t0 dt u0 q k) q j i)
    (h0 : ∀ k, 1 ≤ k → k ≤ N → ∀ i ∈ conds.flatten, traj (V.analysis A B old old' a conds solve linear) t0 dt u0 q k i = 0) (g : ℕ → Ode.Vec V.L.B.N)
    (hg : ∀ k < N, ∀ i ∉ conds.flatten, g k i = Elim.mulVec
      (V.stiffMatrix A old (time t0 dt (k + 1)) (traj (V.analysis A B old old' a conds solve linear) t0 dt u0 q (k + 1)) q)
      (traj (V.analysis A B old old' a conds solve linear) t0 dt u0 q (k + 1)) i) :
    ∃ r, pass (V.analysis A B old old' a conds solve linear) q (C59.loads g N)
        (forward (V.analysis A B old old' a conds solve linear) q (C59.steps dt N) (start t0 u0)) = some r ∧
      ∀ w, r.1.sum ⬝ᵥ w = -∑ k ∈ range N, slopeForm V s φ B (traj (V.analysis A B old old' a conds solve linear) t0 dt u0 q (k + 1)) q w
        (traj (V.analysis A B old old' a conds solve linear) t0 dt u0 q (k + 1)) := by
  obtain ⟨D, hD⟩ := moves hR h hP
  have hq : ∀ w : Ode.Vec V.nn, q + (0 : ℝ) • w = q := fun w => by rw [zero_smul, add_zero]
  have hg' : ∀ w, ∃ r, pass (V.analysis A B old old' a conds solve linear) q (C59.loads g N)
      (forward (V.analysis A B old old' a conds solve linear) q (C59.steps dt N) (start t0 u0)) = some r ∧ r.1.sum ⬝ᵥ w = ∑ k ∈ range N, g k ⬝ᵥ D (k + 1) w := by
    intro w
    have hF := hR.family h hP hl D (fun k h1 hk => (hD k h1 hk).1) w
    obtain ⟨r, hr, -, -, hsum⟩ := C59.pass_sum hF g N le_rfl _ (C59.C59_forward _ t0 dt u0 (q + (0 : ℝ) • w) N).1
    rw [hq] at hr
    exact ⟨r, hr, (sum_dot _ _).trans hsum⟩
  obtain ⟨r, hr, -⟩ := hg' 0
  refine ⟨r, hr, fun w => ?_⟩
  obtain ⟨r', hr', hw⟩ := hg' w
  rw [hr, Option.some.injEq] at hr'
  subst hr'
  rw [hw, ← sum_neg_distrib]
  refine sum_congr rfl fun k hk => ?_
  have hkN := mem_range.1 hk
  obtain ⟨-, hlin⟩ := hD (k + 1) (by omega) (by omega)
  obtain ⟨l1, l2⟩ := hlin w
  rw [← C85_form h.meaning h.nondegenerate hP B old', ← sum_neg_distrib]
  have e1 : g k ⬝ᵥ D (k + 1) w = ∑ i, Elim.mulVec (V.stiffMatrix A old (time t0 dt (k + 1)) (traj (V.analysis A B old old' a conds solve linear) t0 dt u0 q (k + 1)) q)
      (traj (V.analysis A B old old' a conds solve linear) t0 dt u0 q (k + 1)) i * D (k + 1) w i := by
    refine sum_congr rfl fun i _ => ?_
    by_cases hi : i ∈ conds.flatten
    · rw [l1 i hi, mul_zero, mul_zero]
    · rw [hg k hkN i hi]
  rw [e1, mulVec_symm (hK (k + 1) (by omega) (by omega))]
  refine sum_congr rfl fun i _ => ?_
  by_cases hi : i ∈ conds.flatten
  · rw [h0 (k + 1) (by omega) (by omega) i hi, mul_zero, mul_zero, neg_zero]
  · rw [l2 i hi]
    ring

end SelfAdjoint

/-! ## Linear elastic bodies -/

section Linear
variable {d : Dim} {V : Variant d} {s sF : Shapes} {φ : ℕ → ℕ → ℝ} {dφ : ℕ → ℕ → ℕ → ℝ} {wt : ℕ → ℝ} {K0 G0 α β : ℕ → ℝ}

/-- Spec: the work of the loads of time `t` on a displacement; the loads are minus the residual of the undeformed body. -/
def compliance (V : Variant d) (t : ℝ) (q : Ode.Vec V.nn) (u : Ode.Vec V.L.B.N) : ℝ := (-V.residual t 0 0 q) ⬝ᵥ u

/-- Spec: twice the energy density of the displacement gradient `H` per unit of the parameter. -/
def density (n : ℕ) (α β : ℝ) (H : M n) : ℝ := (α - 2 / n * β) * H.trace ^ 2 + β / 2 * ∑ i, ∑ j, (H i j + H j i) ^ 2

theorem density_nonneg {n : ℕ} {α β : ℝ} (hα : 0 ≤ α) (hβ : 0 ≤ β) (H : M n) : 0 ≤ density n α β H := by
  have h1 : ∑ i, (2 * H i i) ^ 2 ≤ ∑ i, ∑ j, (H i j + H j i) ^ 2 := by
    refine sum_le_sum fun i _ => ?_
    refine le_trans (le_of_eq ?_) (single_le_sum (f := fun j => (H i j + H j i) ^ 2) (fun j _ => sq_nonneg _) (mem_univ i))
    ring
  have h2 : H.trace ^ 2 ≤ n * ∑ i, H i i ^ 2 := by
    have := sq_sum_le_card_mul_sum_sq (s := (univ : Finset (Fin n))) (f := fun i => H i i)
    simpa [Matrix.trace] using this
  have h3 : ∑ i, (2 * H i i) ^ 2 = 4 * ∑ i, H i i ^ 2 := by
    rw [mul_sum]
    exact sum_congr rfl fun i _ => by ring
  have h4 : 2 / (n : ℝ) * H.trace ^ 2 ≤ 2 * ∑ i, H i i ^ 2 := by
    rcases Nat.eq_zero_or_pos n with rfl | hn
    · simp
    · have hn' : (0 : ℝ) < n := by exact_mod_cast hn
      rw [div_mul_eq_mul_div, div_le_iff₀ hn']
      nlinarith
  unfold density
  have h5 := mul_nonneg hα (sq_nonneg H.trace)
  have h6 : 0 ≤ β * (1 / 2 * (∑ i, ∑ j, (H i j + H j i) ^ 2) - 2 / n * H.trace ^ 2) := mul_nonneg hβ (by linarith)
  nlinarith

theorem linear_density {n : ℕ} (α β : ℝ) (H : M n) : ∑ i, ∑ j, C31.linear (α - 2 / n * β) β H i j * H i j = density n α β H := by
  have e : ∑ i, ∑ j, (H i j + H j i) * H i j = 1 / 2 * ∑ i, ∑ j, (H i j + H j i) ^ 2 := by
    have : ∑ i, ∑ j, (H i j + H j i) * H i j = ∑ i, ∑ j, (H i j + H j i) * H j i := by
      rw [sum_comm]
      exact sum_congr rfl fun i _ => sum_congr rfl fun j _ => by ring
    have h2 : ∑ i, ∑ j, (H i j + H j i) ^ 2 = ∑ i, ∑ j, (H i j + H j i) * H i j + ∑ i, ∑ j, (H i j + H j i) * H j i := by
      rw [← sum_add_distrib]
      refine sum_congr rfl fun i _ => ?_
      rw [← sum_add_distrib]
      exact sum_congr rfl fun j _ => by ring
    rw [h2, ← this]
    ring
  have e2 : ∀ i j, C31.linear (α - 2 / n * β) β H i j * H i j = (α - 2 / n * β) * H.trace * (if i = j then H i j else 0) + β * ((H i j + H j i) * H i j) := by
    intro i j
    simp only [C31.linear, Matrix.add_apply, Matrix.smul_apply, Matrix.transpose_apply, Matrix.one_apply, smul_eq_mul]
    split <;> ring
  simp only [e2, sum_add_distrib, ← mul_sum]
  rw [e]
  unfold density
  simp only [sum_ite_eq, mem_univ, if_true, Matrix.trace, Matrix.diag_apply]
  ring

theorem flux_linear (hon : V.L.B.S.on = false) (hlaw : ∀ p θ H, V.law p θ H = some (Mat.parameterizedLinearIsotropic (K0 p) (G0 p) (α p * θ) (β p * θ) H)) (p : ℕ)
    (y : (Fin d.n → Fin d.n → ℝ) × ℝ) : flux V p y = some (C31.linear (K0 p + α p * y.2 - 2 / d.n * (G0 p + β p * y.2)) (G0 p + β p * y.2) (Matrix.of y.1)) := by
  unfold C85.flux
  rw [hon, show V.law p y.2 = fun H => some (Mat.parameterizedLinearIsotropic (K0 p) (G0 p) (α p * y.2) (β p * y.2) H) from funext fun H => hlaw p y.2 H]
  refine (C33.C33_flux_off (C71.ops_exact d) _ _).trans ?_
  rw [C31.plinear_eq]

theorem linear_affine {n : ℕ} (k g a b θ : ℝ) (H : M n) (i j : Fin n) : C31.linear (k + a * θ - 2 / n * (g + b * θ)) (g + b * θ) H i j =
    C31.linear (k - 2 / n * g) g H i j + θ * C31.linear (a - 2 / n * b) b H i j := by
  simp only [C31.linear, Matrix.add_apply, Matrix.smul_apply, smul_eq_mul]
  ring

/-- The slope of the stress. -/
theorem slopes_linear (hon : V.L.B.S.on = false) (hlaw : ∀ p θ H, V.law p θ H = some (Mat.parameterizedLinearIsotropic (K0 p) (G0 p) (α p * θ) (β p * θ) H)) (p : ℕ) (θ : ℝ)
    (H : M d.n) (i m : Fin d.n) : slopes V p θ H i m = C31.linear (α p - 2 / d.n * β p) (β p) H i m := by
  have hJ : Joint (fun θ => materialFlux (ops d) false (V.law p θ)) ((H : Fin d.n → Fin d.n → ℝ), θ) := by
    refine C85_flux false ?_ fun h => Bool.noConfusion h
    have e : V.law p = fun θ H => some (Mat.parameterizedLinearIsotropic (K0 p) (G0 p) (α p * θ) (β p * θ) H) := funext fun θ => funext fun H => hlaw _ θ H
    rw [e]
    cases d with
    | two => exact (C85_materials _ _ _ _ _ 0).1
    | three => exact (C85_materials _ _ _ _ 0 _).2.1
  have hd := ((hJ.2 i m).differentiableAt one_ne_zero).hasFDerivAt
  have hp : HasDerivAt (fun x : ℝ => ((H : Fin d.n → Fin d.n → ℝ), x)) ((0 : Fin d.n → Fin d.n → ℝ), (1 : ℝ)) θ := (hasDerivAt_const (F := Fin d.n → Fin d.n → ℝ) θ H).prodMk (hasDerivAt_id θ)
  have h1 := hd.comp_hasDerivAt θ hp
  have h2 : HasDerivAt (fun x : ℝ => C31.linear (K0 p - 2 / d.n * G0 p) (G0 p) H i m + x * C31.linear (α p - 2 / d.n * β p) (β p) H i m)
      (C31.linear (α p - 2 / d.n * β p) (β p) H i m) θ := by
    simpa using ((hasDerivAt_id θ).mul_const (C31.linear (α p - 2 / d.n * β p) (β p) H i m)).const_add (C31.linear (K0 p - 2 / d.n * G0 p) (G0 p) H i m)
  have e : (fun x : ℝ => C31.linear (K0 p - 2 / d.n * G0 p) (G0 p) H i m + x * C31.linear (α p - 2 / d.n * β p) (β p) H i m) =
      (fun y : (Fin d.n → Fin d.n → ℝ) × ℝ => (materialFlux (ops d) false (V.law p y.2) (Matrix.of y.1)).getD 0 i m) ∘ fun x : ℝ => ((H : Fin d.n → Fin d.n → ℝ), x) := by
    funext x
    have := flux_linear hon hlaw p ((H : Fin d.n → Fin d.n → ℝ), x)
    unfold C85.flux at this
    rw [hon] at this
    rw [Function.comp_apply, this, Option.getD_some, linear_affine]
    rfl
  rw [e] at h2
  have := h1.unique h2
  unfold slopes C85.flux
  rw [hon]
  exact this

/-- Spec: both moduli are positive at the quadrature points. -/
def Positive (V : Variant d) (φ : ℕ → ℕ → ℝ) (K0 G0 α β : ℕ → ℝ) (q : Ode.Vec V.nn) : Prop := ∀ ee ∈ V.L.B.S.elements.zipIdx, ∀ Q < V.L.B.S.E.npts,
  let p := ee.2 * V.L.B.S.E.npts + Q
  0 < K0 p + α p * theta V φ q ee.1 Q ∧ 0 < G0 p + β p * theta V φ q ee.1 Q

theorem grad_zero (e Q : ℕ) : C71.grad V.L.B.S s (V.L.B.nodal 0) e Q = 0 := by
  have : C71.parGrad V.L.B.S s (V.L.B.nodal 0) e Q = 0 := by
    funext i k
    simp [C71.parGrad, Body.nodal]
  unfold C71.grad
  rw [this, Matrix.zero_mul]

/-- The loads do not depend on the parameter. -/
theorem loads_eq (h : C84.Sound V.L s sF) (hP : Field V φ dφ) (hon : V.L.B.S.on = false)
    (hlaw : ∀ p θ H, V.law p θ H = some (Mat.parameterizedLinearIsotropic (K0 p) (G0 p) (α p * θ) (β p * θ) H)) (t : ℝ) (q : Ode.Vec V.nn) (v : Ode.Vec V.L.B.N) :
    compliance V t q v = C75.force V.L s sF t v := by
  have hs := sound h q
  have hst : C71.Stress (V.body q).B.S s ((V.body q).B.nodal 0) (fun _ _ => 0) := by
    intro ee hee Q hQ
    have e := flux_linear hon hlaw (ee.2 * V.L.B.S.E.npts + Q) (at' V s φ 0 q ee.1 Q)
    unfold C85.flux at e
    change materialFlux (ops d) V.L.B.S.on (V.law (ee.2 * V.L.B.S.E.npts + Q) (V.value q (ee.2 * V.L.B.S.E.npts + Q))) _ = _
    rw [value_eq hP q hee hQ]
    refine e.trans ?_
    have h0 : Matrix.of (at' V s φ 0 q ee.1 Q).1 = (0 : M d.n) := grad_zero ee.1 Q
    rw [h0]
    simp [C31.linear]
  have e := C75.C75_weak_form hs.meaning hs.nondegenerate hs.domains hs.faces hs.loads t 0 0 v _ hst
  have e2 : ∑ k, V.residual t 0 0 q k * v k = C73.inertia V.L.B s 0 v + C73.integral V.L.B s V.L.B.S.elements (fun ee Q => ∑ i, ∑ j, (0 : M d.n) i j * C73.grd V.L.B s v ee.1 Q i j) -
      C73.load V.L.B s t v - C75.external V.L sF t 0 v := e
  have e3 : C73.integral V.L.B s V.L.B.S.elements (fun ee Q => ∑ i, ∑ j, (0 : M d.n) i j * C73.grd V.L.B s v ee.1 Q i j) = 0 := by
    simp [C73.integral]
  rw [e3, C78.inertia_zero] at e2
  unfold compliance C75.force
  rw [neg_dotProduct, dotProduct, e2]
  ring

/-- The elastic energy. -/
theorem strain_density (hP : Field V φ dφ) (q : Ode.Vec V.nn) (u : Ode.Vec V.L.B.N) :
    C73.strain (V.body q).B s (isotropicAt V K0 G0 α β q) u u = C73.integral V.L.B s V.L.B.S.elements fun ee Q => let p := ee.2 * V.L.B.S.E.npts + Q
      density d.n (K0 p + α p * theta V φ q ee.1 Q) (G0 p + β p * theta V φ q ee.1 Q) (C71.grad V.L.B.S s (V.L.B.nodal u) ee.1 Q) := by
  refine C73.integral_congr (B := V.L.B) fun ee hee Q hQ => ?_
  dsimp only
  rw [← value_eq hP q hee hQ, ← linear_density]
  refine sum_congr rfl fun i _ => sum_congr rfl fun j _ => ?_
  refine congrArg (· * _) ?_
  refine (congrFun (congrFun (C31.linearIsotropic_eq _ _ _) i) j).trans ?_
  have key : ∀ k a v g b m : ℝ, k + a * v + (2 / 3 - 2 / m) * (g + b * v) - 2 / 3 * (g + b * v) = k + a * v - 2 / m * (g + b * v) := by
    intros
    ring
  congr 1
  exact key _ _ _ _ _ _

theorem square {L : Loaded d} {C : ℕ → M d.n →ₗ[ℝ] M d.n} (hg : C78.Good L s sF C) (u v : Ode.Vec L.B.N) :
    C73.strain L.B s C (u - v) (u - v) = C73.strain L.B s C u u - 2 * C73.strain L.B s C u v + C73.strain L.B s C v v := by
  have hs := C78.strain_symm hg
  rw [C78.strain_sub, hs u, hs v (u - v), C78.strain_sub, C78.strain_sub, hs v u]
  ring

variable (h : C84.Sound V.L s sF) (hP : Field V φ dφ) (hon : V.L.B.S.on = false)
  (hlaw : ∀ p θ H, V.law p θ H = some (Mat.parameterizedLinearIsotropic (K0 p) (G0 p) (α p * θ) (β p * θ) H))
include h hP hon hlaw

/-- What equilibria have to do with compliance: the work of the loads is the elastic energy, twice, and no displacement gets more out of them. -/
theorem best (hv : C73.Volumes V.L.B s) {q : Ode.Vec V.nn} (hq : Positive V φ K0 G0 α β q) {fixed : List (Fin V.L.B.N)} {t : ℝ} {u : Ode.Vec V.L.B.N}
    (hu : C78.Equilibrium (V.body q) fixed 0 t u) : compliance V t q u = C73.strain (V.body q).B s (isotropicAt V K0 G0 α β q) u u ∧
      ∀ v : Ode.Vec V.L.B.N, (∀ k ∈ fixed, v k = 0) → 2 * compliance V t q v - C73.strain (V.body q).B s (isotropicAt V K0 G0 α β q) v v ≤ compliance V t q u := by
  obtain ⟨hg, hpos⟩ := (isotropic_good h hP hon hlaw hq).self_of_nhds
  have e := (C78.residual_of_tested hg).1 hu.2
  have e1 : ∀ v, (∀ k ∈ fixed, v k = 0) → C73.strain (V.body q).B s (isotropicAt V K0 G0 α β q) u v = compliance V t q v := fun v hv =>
    (e v hv).trans (loads_eq h hP hon hlaw t q v).symm
  refine ⟨(e1 u hu.1).symm, fun v hv' => ?_⟩
  have e2 : 0 ≤ C73.strain (V.body q).B s (isotropicAt V K0 G0 α β q) (u - v) (u - v) := C73.integral_nonneg (B := (V.body q).B) hv fun ee hee Q hQ => (hpos ee hee Q hQ _).1
  have e3 : C73.strain (V.body q).B s (isotropicAt V K0 G0 α β q) (u - v) (u - v) = _ := square hg u v
  have e4 := e1 u hu.1
  have e5 := e1 v hv'
  linarith

/-- **C94, stiffer bodies.**  If bulk and shear modulus grow with the design variable, a body with larger design variables has no larger compliance. -/
theorem C94_stiffer (hE : Constant V.E wt) (hv : C73.Volumes V.L.B s) (hα : ∀ p, 0 ≤ α p) (hβ : ∀ p, 0 ≤ β p) {q q' : Ode.Vec V.nn} (hqq : ∀ n, q n ≤ q' n)
    (hq : Positive V φ K0 G0 α β q) {fixed : List (Fin V.L.B.N)} {t : ℝ} {u u' : Ode.Vec V.L.B.N} (hu : C78.Equilibrium (V.body q) fixed 0 t u)
    (hu' : C78.Equilibrium (V.body q') fixed 0 t u') : compliance V t q' u' ≤ compliance V t q u := by
  have hth : ∀ e Q, theta V φ q e Q ≤ theta V φ q' e Q := fun e Q => by rw [theta_own hE hP, theta_own hE hP]; exact hqq _
  have hq' : Positive V φ K0 G0 α β q' := fun ee hee Q hQ => by
    obtain ⟨h1, h2⟩ := hq ee hee Q hQ
    have := mul_le_mul_of_nonneg_left (hth ee.1 Q) (hα (ee.2 * V.L.B.S.E.npts + Q))
    have := mul_le_mul_of_nonneg_left (hth ee.1 Q) (hβ (ee.2 * V.L.B.S.E.npts + Q))
    exact ⟨by linarith, by linarith⟩
  have h1 := (best h hP hon hlaw hv hq hu).2 u' hu'.1
  have h2 := (best h hP hon hlaw hv hq' hu').1
  have h3 : compliance V t q u' = compliance V t q' u' := (loads_eq h hP hon hlaw t q u').trans (loads_eq h hP hon hlaw t q' u').symm
  have h4 : 0 ≤ C73.integral V.L.B s V.L.B.S.elements fun ee Q => let p := ee.2 * V.L.B.S.E.npts + Q
      1 * density d.n (K0 p + α p * theta V φ q' ee.1 Q) (G0 p + β p * theta V φ q' ee.1 Q) (C71.grad V.L.B.S s (V.L.B.nodal u') ee.1 Q) +
      (-1) * density d.n (K0 p + α p * theta V φ q ee.1 Q) (G0 p + β p * theta V φ q ee.1 Q) (C71.grad V.L.B.S s (V.L.B.nodal u') ee.1 Q) := by
    refine C73.integral_nonneg hv fun ee _ Q _ => ?_
    have hd := density_nonneg (mul_nonneg (sub_nonneg.2 (hth ee.1 Q)) (hα (ee.2 * V.L.B.S.E.npts + Q))) (mul_nonneg (sub_nonneg.2 (hth ee.1 Q)) (hβ (ee.2 * V.L.B.S.E.npts + Q)))
      (C71.grad V.L.B.S s (V.L.B.nodal u') ee.1 Q)
    unfold density at hd ⊢
    linarith
  dsimp only at h4
  rw [C73.integral_lin, ← strain_density hP, ← strain_density hP] at h4
  linarith

/-- **C94, convexity.**  The compliance is a convex function of the design variables. -/
theorem C94_convex (hv : C73.Volumes V.L.B s) {q q' : Ode.Vec V.nn} (hq : Positive V φ K0 G0 α β q) (hq' : Positive V φ K0 G0 α β q') {x : ℝ} (h0 : 0 ≤ x) (h1 : x ≤ 1)
    {fixed : List (Fin V.L.B.N)} {t : ℝ} {u u' w : Ode.Vec V.L.B.N} (hu : C78.Equilibrium (V.body q) fixed 0 t u) (hu' : C78.Equilibrium (V.body q') fixed 0 t u')
    (hw : C78.Equilibrium (V.body ((1 - x) • q + x • q')) fixed 0 t w) : compliance V t ((1 - x) • q + x • q') w ≤ (1 - x) * compliance V t q u + x * compliance V t q' u' := by
  have hth : ∀ e Q, theta V φ ((1 - x) • q + x • q') e Q = (1 - x) * theta V φ q e Q + x * theta V φ q' e Q := fun e Q => by
    have : theta V φ ((1 - x) • q + x • q') e Q = thetaMap V φ e Q ((1 - x) • q + x • q') := rfl
    rw [this, map_add, map_smul, map_smul]
    rfl
  have pos : ∀ {a b : ℝ}, 0 < a → 0 < b → 0 < (1 - x) * a + x * b := fun {a b} ha hb => by
    rcases eq_or_lt_of_le h0 with rfl | hx
    · simpa using ha
    · have := mul_nonneg (sub_nonneg.2 h1) ha.le
      have := mul_pos hx hb
      linarith
  have hm : Positive V φ K0 G0 α β ((1 - x) • q + x • q') := fun ee hee Q hQ => by
    obtain ⟨a1, a2⟩ := hq ee hee Q hQ
    obtain ⟨b1, b2⟩ := hq' ee hee Q hQ
    have c1 := pos a1 b1
    have c2 := pos a2 b2
    dsimp only
    rw [hth]
    exact ⟨by linarith, by linarith⟩
  have l := fun q => loads_eq h hP hon hlaw t q w
  have b0 := (best h hP hon hlaw hv hm hw).1
  have b1 := (best h hP hon hlaw hv hq hu).2 w hw.1
  have b2 := (best h hP hon hlaw hv hq' hu').2 w hw.1
  have e : C73.strain (V.body ((1 - x) • q + x • q')).B s (isotropicAt V K0 G0 α β ((1 - x) • q + x • q')) w w =
      (1 - x) * C73.strain (V.body q).B s (isotropicAt V K0 G0 α β q) w w + x * C73.strain (V.body q').B s (isotropicAt V K0 G0 α β q') w w := by
    rw [strain_density hP, strain_density hP, strain_density hP]
    dsimp only
    rw [← C73.integral_lin]
    refine C73.integral_congr fun ee _ Q _ => ?_
    rw [hth]
    unfold density
    ring
  rw [l] at b0 b1 b2 ⊢
  have p1 := mul_le_mul_of_nonneg_left b1 (sub_nonneg.2 h1)
  have p2 := mul_le_mul_of_nonneg_left b2 h0
  nlinarith

variable {b : Ode.BCs V.L.B.N} {g : ℝ → Ode.Vec V.L.B.N} {conds : List (List (Fin V.L.B.N))} {o : StaticSolver V.L.B.N} {old old' : Buffer ℝ}
  {solve : ℝ → Ode.Vec V.nn → Ode.Vec V.L.B.N → Ode.Vec V.L.B.N} {linear : Elim.Mat V.L.B.N → Ode.Vec V.L.B.N → Ode.Vec V.L.B.N}

theorem supported {q : Ode.Vec V.nn} (hq : Positive V φ K0 G0 α β q) (hp : C78.Proper V.L.B s) (hh : ∀ n, C78.Held V.L.B b.allDofs n) :
    C78.Supported (V.body q) s (isotropicAt V K0 G0 α β q) b.allDofs := by
  refine C78.C78_supported_varying (L := V.body q) ⟨hp.nodes, hp.slope, hp.volume⟩ (fun n => ?_) (isotropic_good h hP hon hlaw hq).self_of_nhds.2
  have key : ∀ n : Fin V.L.B.S.nn, C78.Held V.L.B b.allDofs n → C78.Held (V.body q).B b.allDofs n := by
    intro n hn
    induction hn with
    | fixed n h => exact .fixed (B := (V.body q).B) n h
    | element e a he ha h ih => exact .element (B := (V.body q).B) e a he ha ih
  exact key n (hh n)

/-- **C94, solved.**  The code's solver (warm start, Newton's method with exact linear solves) leaves every step in equilibrium, at the design variables of the run. -/
theorem C94_solved {q : Ode.Vec V.nn} (hq : Positive V φ K0 G0 α β q) (hp : C78.Proper V.L.B s) (hh : ∀ n, C78.Held V.L.B b.allDofs n) (hg : Ode.Prescribes b g) (hnd : b.allDofs.Nodup)
    (hlin : C78.Exact o.linear) (hnorm : C78.Length o.norm) (hw : o.warm = true)
    (hsolve : ∀ t q' u, ∃ (x : StaticState V.L.B.N) (dt : ℝ), x.time + dt = t ∧ x.u = u ∧
      solve t q' u = ((V.body q').staticStep (fun p H => moduli V p (V.value q' p) H) old o b 0 x dt).u)
    (t0 : ℝ) (dt : ℕ → ℝ) (u0 : Ode.Vec V.L.B.N) (k : ℕ) : C78.Equilibrium (V.body q) b.allDofs (g (time t0 dt (k + 1))) (time t0 dt (k + 1))
      (traj (V.analysis (moduli V) (slopes V) old old' 0 conds solve linear) t0 dt u0 q (k + 1)) := by
  obtain ⟨x, δ, hx, -, he⟩ := hsolve (time t0 dt (k + 1)) q (traj (V.analysis (moduli V) (slopes V) old old' 0 conds solve linear) t0 dt u0 q k)
  have := (C78.C78_step (old := old) (isotropic_good h hP hon hlaw hq).self_of_nhds.1 (supported h hP hon hlaw hq hp hh)
    (fun u => (isotropic_smooth (s := s) (φ := φ) hon hlaw u q).1.body hP) hlin hnorm hw hg hnd x δ).1
  rw [hx] at this
  have he2 : traj (V.analysis (moduli V) (slopes V) old old' 0 conds solve linear) t0 dt u0 q (k + 1) =
    ((V.body q).staticStep (fun p H => moduli V p (V.value q p) H) old o b 0 x δ).u := he
  exact (congrArg (C78.Equilibrium (V.body q) b.allDofs (g (time t0 dt (k + 1))) (time t0 dt (k + 1))) he2).mpr this

/-- Spec: the compliance of all steps. -/
def total (V : Variant d) (pr : StaticAdj.Problem V.L.B.N V.nn) (t0 : ℝ) (dt : ℕ → ℝ) (u0 : Ode.Vec V.L.B.N) (N : ℕ) (q : Ode.Vec V.nn) : ℝ :=
  ∑ k ∈ range N, compliance V (time t0 dt (k + 1)) q (traj pr t0 dt u0 q (k + 1))

/-- **C94, compliance.**  Analysis and adjoint pass with the load vectors as adjoint loads: what the pass returns is the gradient of the compliance, and its component for an element
is minus the energy density, per unit of the design variable, integrated over the element; so it is not positive if both moduli grow with the design variable. -/
theorem C94_compliance (hE : Constant V.E wt) {q : Ode.Vec V.nn} (hq : Positive V φ K0 G0 α β q) (hp : C78.Proper V.L.B s) (hh : ∀ n, C78.Held V.L.B b.allDofs n)
    (hg : Ode.Prescribes b fun _ _ => 0) (hnd : b.allDofs.Nodup) (hc : conds.flatten = b.allDofs) (hlin : C78.Exact o.linear) (hnorm : C78.Length o.norm) (hw : o.warm = true)
    (hl : C78.Exact linear) (hsolve : ∀ t q' u, ∃ (x : StaticState V.L.B.N) (dt : ℝ), x.time + dt = t ∧ x.u = u ∧
      solve t q' u = ((V.body q').staticStep (fun p H => moduli V p (V.value q' p) H) old o b 0 x dt).u)
    (t0 : ℝ) (dt : ℕ → ℝ) (u0 : Ode.Vec V.L.B.N) (N : ℕ) :
    let pr := V.analysis (moduli V) (slopes V) old old' 0 conds solve linear
    ∃ r, pass pr q (C59.loads (fun k => -V.residual (time t0 dt (k + 1)) 0 0 q) N) (forward pr q (C59.steps dt N) (start t0 u0)) = some r ∧
      (∃ G : Ode.Vec V.nn →L[ℝ] ℝ, HasFDerivAt (total V pr t0 dt u0 N) G q ∧ ∀ w, G w = r.1.sum ⬝ᵥ w) ∧
      (∀ n, r.1.sum n = -∑ k ∈ range N, (V.L.B.S.elements.zipIdx.map fun ee => if V.conn ee.1 0 = n then ∑ Q ∈ range V.L.B.S.E.npts, s.wt Q * ((C71.jac V.L.B.S s ee.1 Q).det *
        density d.n (α (ee.2 * V.L.B.S.E.npts + Q)) (β (ee.2 * V.L.B.S.E.npts + Q)) (C71.grad V.L.B.S s (V.L.B.nodal (traj pr t0 dt u0 q (k + 1))) ee.1 Q)) else 0).sum) ∧
      ((∀ p, 0 ≤ α p) → (∀ p, 0 ≤ β p) → ∀ n, r.1.sum n ≤ 0) := by
  intro pr
  have hR := C85_isotropic (old := old) (old' := old') h hP hon hlaw hq hp hh hg hnd hc hlin hnorm hw linear hsolve t0 dt u0 N
  have heq := fun k => C94_solved (old := old) (old' := old') (conds := conds) (linear := linear) h hP hon hlaw hq hp hh hg hnd hlin hnorm hw hsolve t0 dt u0 k
  have hgood := (isotropic_good h hP hon hlaw hq).self_of_nhds.1
  have hT := fun u => (isotropic_smooth (s := s) (φ := φ) hon hlaw u q).1.body hP
  have hfree : ∀ k < N, ∀ i ∉ conds.flatten, (-V.residual (time t0 dt (k + 1)) 0 0 q) i = Elim.mulVec
      (V.stiffMatrix (moduli V) old (time t0 dt (k + 1)) (traj pr t0 dt u0 q (k + 1)) q) (traj pr t0 dt u0 q (k + 1)) i := by
    intro k _ i hi
    have e1 := C78.stiff_tested hgood (hT (traj pr t0 dt u0 q (k + 1))) old (time t0 dt (k + 1)) (traj pr t0 dt u0 q (k + 1)) (C77.one V.L i)
    have e2 := (C78.residual_of_tested hgood).1 (heq k).2 (C77.one V.L i) fun m hm => by
      have : m ≠ i := fun e => hi (by rw [hc, ← e]; exact hm)
      exact if_neg this
    have e3 := loads_eq h hP hon hlaw (time t0 dt (k + 1)) q (C77.one V.L i)
    have e4 : compliance V (time t0 dt (k + 1)) q (C77.one V.L i) = (-V.residual (time t0 dt (k + 1)) 0 0 q) i := C77.dot_one (L := V.L) _ i
    have e5 := C77.dot_one (L := V.L) (Elim.mulVec (V.stiffMatrix (moduli V) old (time t0 dt (k + 1)) (traj pr t0 dt u0 q (k + 1)) q) (traj pr t0 dt u0 q (k + 1))) i
    exact (e4.symm.trans e3).trans ((e5.symm.trans e1).trans e2).symm
  obtain ⟨r, hr, hw'⟩ := C94_self_adjoint hR h hP hl (fun k h1 hk => (C78.C78_stiffness hgood (hT _) old _).2.1)
    (fun k h1 hk i hi => by
      obtain ⟨j, rfl⟩ : ∃ j, k = j + 1 := ⟨k - 1, by omega⟩
      exact (heq j).1 i (by rw [← hc]; exact hi)) _ hfree
  refine ⟨r, hr, ?_, ?_⟩
  · let F : ℕ → Ode.Vec V.L.B.N := fun k => -V.residual (time t0 dt (k + 1)) 0 0 q
    let J : (Fin N → Ode.Vec V.L.B.N) →ₗ[ℝ] ℝ :=
      { toFun := fun z => ∑ k : Fin N, F k ⬝ᵥ z k
        map_add' := fun v w => by simp only [Pi.add_apply, dotProduct_add, sum_add_distrib]
        map_smul' := fun x v => by simp only [Pi.smul_apply, dotProduct_smul, smul_eq_mul, mul_sum, RingHom.id_apply] }
    obtain ⟨r', hr', G, hG, hGw⟩ := C85_gradient hR h hP hl J F ⟨LinearMap.toContinuousLinearMap J, (LinearMap.toContinuousLinearMap J).hasFDerivAt, fun v => rfl⟩
    have : r' = r := Option.some.inj (hr'.symm.trans hr)
    subst this
    refine ⟨G, ?_, hGw⟩
    have e : total V pr t0 dt u0 N = fun q' => J fun k : Fin N => traj pr t0 dt u0 q' (k + 1) := by
      funext q'
      unfold total
      rw [← Fin.sum_univ_eq_sum_range fun k => compliance V (time t0 dt (k + 1)) q' (traj pr t0 dt u0 q' (k + 1))]
      refine sum_congr rfl fun k _ => ?_
      rw [loads_eq h hP hon hlaw, ← loads_eq h hP hon hlaw _ q]
      rfl
    rw [e]
    exact hG
  · have hn : ∀ n, r.1.sum n = -∑ k ∈ range N, (V.L.B.S.elements.zipIdx.map fun ee => if V.conn ee.1 0 = n then ∑ Q ∈ range V.L.B.S.E.npts, s.wt Q *
        ((C71.jac V.L.B.S s ee.1 Q).det * density d.n (α (ee.2 * V.L.B.S.E.npts + Q)) (β (ee.2 * V.L.B.S.E.npts + Q))
          (C71.grad V.L.B.S s (V.L.B.nodal (traj pr t0 dt u0 q (k + 1))) ee.1 Q)) else 0).sum := by
      intro n
      have e := hw' (Pi.single n 1)
      rw [dotProduct_single_one] at e
      rw [e]
      congr 1
      refine sum_congr rfl fun k _ => ?_
      unfold slopeForm C73.integral
      congr 1
      refine List.map_congr_left fun ee _ => ?_
      split
      · rename_i hne
        refine sum_congr rfl fun Q _ => ?_
        beta_reduce
        rw [← linear_density, theta_own hE hP (Pi.single n 1), hne, Pi.single_eq_same]
        congr 2
        refine sum_congr rfl fun i _ => sum_congr rfl fun m _ => ?_
        rw [slopes_linear hon hlaw, mul_one]
        rfl
      · rename_i hne
        refine sum_eq_zero fun Q _ => ?_
        beta_reduce
        rw [theta_own hE hP (Pi.single n 1), Pi.single_eq_of_ne hne]
        simp
    refine ⟨hn, fun hα hβ n => ?_⟩
    rw [hn, neg_nonpos]
    refine sum_nonneg fun k _ => List.sum_nonneg fun x hx => ?_
    obtain ⟨ee, hee, rfl⟩ := List.mem_map.1 hx
    split
    · refine sum_nonneg fun Q hQ => ?_
      rw [← mul_assoc]
      exact mul_nonneg (hp.volume ee.1 (C71.mem_zipIdx_fst hee) Q (mem_range.1 hQ)).le (density_nonneg (hα _) (hβ _) _)
    · exact le_rfl

end Linear

/-! ## Example: the square of C85, clamped, under gravity, traction and pressure, with one design variable for each of its four triangles -/

section Example

def exDesign : Variant .two where
  L := C75.exLoaded [C73.exGravity] [C75.exTraction, C75.exPressure]
  E := simplex (simplexL2 2 3 C72.tri3.xi C72.tri3.wt)
  nn := 4
  conn := fun e _ => Fin.ofNat 4 e
  law := fun _ θ H => some (Mat.parameterizedLinearIsotropic 2 1 (1 * θ) (0 * θ) H)

theorem ex_constant : Constant exDesign.E C72.tri3.wt := (C94_elements (P := ℝ × ℝ) 0 2 3 C72.tri3.xi (fun _ => 0) C72.tri3.wt).1

theorem ex_field : Field exDesign (fun _ _ => 1.0) (fun _ _ _ => 0.0) := ⟨(C51.C51_simplex (simplexL2 2 3 C72.tri3.xi C72.tri3.wt)).1, rfl⟩

theorem ex_sound : C84.Sound exDesign.L C72.exShapes C75.exSF := C85.ex_sound

theorem ex_positive {q : Ode.Vec 4} (hq : ∀ i, -1 ≤ q i) : Positive exDesign (fun _ _ => 1.0) (fun _ => 2) (fun _ => 1) (fun _ => 1) (fun _ => 0) q := by
  intro ee _ Q _
  have : -1 ≤ theta exDesign (fun _ _ => 1.0) q ee.1 Q := (theta_own ex_constant ex_field q ee.1 Q).symm ▸ hq _
  exact ⟨by linarith, by norm_num⟩

def exSolve (old : Buffer ℝ) (o : Newton.Options) : ℝ → Ode.Vec exDesign.nn → Ode.Vec exDesign.L.B.N → Ode.Vec exDesign.L.B.N := fun t q' u =>
  ((exDesign.body q').staticStep (fun p H => moduli exDesign p (exDesign.value q' p) H) old (C78.exSolver true o) C73.exClamp 0 ⟨0, u, 0, ⟨.fin 0, false, 0, .fin 0⟩⟩ t).u

/-- Three steps; any design variables from -1. -/
example (old old' : Buffer ℝ) (o : Newton.Options) {q : Ode.Vec 4} (hq : ∀ i, -1 ≤ q i) :
    let pr := exDesign.analysis (moduli exDesign) (slopes exDesign) old old' 0 [C73.exClamp.allDofs] (exSolve old o) (C78.exSolver true o).linear
    ∃ r, pass pr q (C59.loads (fun k => -exDesign.residual (time 0 (fun _ => 1) (k + 1)) 0 0 q) 3) (forward pr q (C59.steps (fun _ => 1) 3) (start 0 0)) = some r ∧
      (∃ G : Ode.Vec 4 →L[ℝ] ℝ, HasFDerivAt (total exDesign pr 0 (fun _ => 1) 0 3) G q ∧ ∀ w, G w = r.1.sum ⬝ᵥ w) ∧ ∀ n, r.1.sum n ≤ 0 := by
  obtain ⟨r, h1, h2, -, h3⟩ := C94_compliance (V := exDesign) (K0 := fun _ => 2) (G0 := fun _ => 1) (α := fun _ => 1) (β := fun _ => 0) (b := C73.exClamp) (old := old) (old' := old')
    (conds := [C73.exClamp.allDofs]) (linear := (C78.exSolver true o).linear) ex_sound ex_field rfl (fun _ _ _ => rfl) ex_constant (ex_positive hq) (C78.ex_proper _) (C78.ex_held _) C73.ex_clamp (by decide) (by rfl) (C78.ex_exact true o)
    (C78.ex_length true o) rfl (C78.ex_exact true o) (solve := exSolve old o) (fun t q' u => ⟨⟨0, u, 0, ⟨.fin 0, false, 0, .fin 0⟩⟩, t, zero_add t, rfl, rfl⟩) 0 (fun _ => 1) 0 3
  exact ⟨r, h1, h2, h3 (fun _ => zero_le_one) fun _ => le_rfl⟩

/-- Stiffening the third triangle lowers the compliance of every step of the code's analysis, or leaves it; halfway it is at most the mean. -/
example (old old' : Buffer ℝ) (o : Newton.Options) {q : Ode.Vec exDesign.nn} (hq : ∀ i : Fin 4, -1 ≤ q i) (k : ℕ) :
    let pr := exDesign.analysis (moduli exDesign) (slopes exDesign) old old' 0 [C73.exClamp.allDofs] (exSolve old o) (C78.exSolver true o).linear
    let q' : Ode.Vec exDesign.nn := fun i : Fin 4 => q i + if i = 2 then 1 else 0
    let c := fun q => compliance exDesign (time 0 (fun _ => 1) (k + 1)) q (traj pr 0 (fun _ => 1) 0 q (k + 1))
    c q' ≤ c q ∧ c ((1 - 1 / 2 : ℝ) • q + (1 / 2 : ℝ) • q') ≤ (1 - 1 / 2) * c q + 1 / 2 * c q' := by
  intro pr q' c
  have hq' : ∀ i : Fin 4, q i ≤ q' i := fun i => by
    refine le_add_of_nonneg_right ?_
    split <;> norm_num
  have eq := fun (q : Ode.Vec exDesign.nn) (hq : ∀ i : Fin 4, -1 ≤ q i) => C94_solved (V := exDesign) (K0 := fun _ => 2) (G0 := fun _ => 1) (α := fun _ => 1) (β := fun _ => 0)
    (b := C73.exClamp) (g := fun _ _ => 0) (old := old) (old' := old') (conds := [C73.exClamp.allDofs]) (linear := (C78.exSolver true o).linear) ex_sound ex_field rfl (fun _ _ _ => rfl)
    (ex_positive hq) (C78.ex_proper _) (C78.ex_held _) C73.ex_clamp (by decide) (C78.ex_exact true o) (C78.ex_length true o) rfl (solve := exSolve old o)
    (fun t q' u => ⟨⟨0, u, 0, ⟨.fin 0, false, 0, .fin 0⟩⟩, t, zero_add t, rfl, rfl⟩) 0 (fun _ => 1) 0 k
  have hv : C73.Volumes exDesign.L.B C72.exShapes := fun e he Q hQ => ((C78.ex_proper _).volume e he Q hQ).le
  have h1 : ∀ i : Fin 4, -1 ≤ q' i := fun i => (hq i).trans (hq' i)
  refine ⟨C94_stiffer ex_sound ex_field rfl (fun _ _ _ => rfl) ex_constant hv (fun _ => zero_le_one) (fun _ => le_rfl) hq' (ex_positive hq) (eq q hq) (eq q' h1),
    C94_convex ex_sound ex_field rfl (fun _ _ _ => rfl) hv (ex_positive hq) (ex_positive h1) (by norm_num) (by norm_num) (eq q hq) (eq q' h1) (eq _ fun i => ?_)⟩
  have a := hq i
  have b := h1 i
  change -1 ≤ (1 - 1 / 2) * q i + 1 / 2 * q' i
  linarith

/-- The third triangle does not touch the first node. -/
example (t : ℝ) (u a : Ode.Vec exDesign.L.B.N) (q : Ode.Vec exDesign.nn) (x : ℝ) (c : Fin 2) :
    let q' : Ode.Vec exDesign.nn := fun i : Fin 4 => if i = 2 then x else q i
    exDesign.residual t u a q (exDesign.L.B.num ((0 : Fin 5), c)) = exDesign.residual t u a q' (exDesign.L.B.num ((0 : Fin 5), c)) := by
  intro q'
  refine C94_local ex_sound ex_constant ex_field t u a (fun p _ ee _ Q _ => ?_) _ fun e he b hb hn => ?_
  · rw [flux_linear (V := exDesign) (K0 := fun _ => 2) (G0 := fun _ => 1) (α := fun _ => 1) (β := fun _ => 0) rfl (fun _ _ _ => rfl)]
    rfl
  · rw [Equiv.symm_apply_apply] at hn
    have he : e = 0 ∨ e = 1 ∨ e = 2 ∨ e = 3 := by simpa [exDesign, C75.exLoaded, C73.exBody, C73.exMesh] using he
    have hb : b < 3 := hb
    have hn : C71.exConn e b = 0 := hn
    have h2 : e ≠ 2 := by
      rintro rfl
      interval_cases b <;> exact absurd hn (by decide)
    have : Fin.ofNat 4 e ≠ 2 := by rcases he with rfl | rfl | rfl | rfl <;> first | exact absurd rfl h2 | decide
    exact (if_neg this).symm

end Example
end Serac.C94
