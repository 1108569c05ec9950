import Mathlib.Analysis.Calculus.ImplicitFunction.ProdDomain
import Verif.Model.ParameterTangent
import Verif.Props.C59
import Verif.Props.C84
/-!
# C85: gradients of quasi-static solids with respect to parameter fields

Spec.  `theta` is the parameter field at a point of the mesh, from shape functions; `slopeForm` the weak form of the derivative of the stress with respect to it; `Tangent` and
`Smooth` say that the flux of the material is (continuously) differentiable, jointly in gradient and parameter, where a displacement and a parameter evaluate it; `Equilibrium`
is zero residual on the free dofs and prescribed values on the others; `Run` an analysis whose steps are solved.  The derivative of the objective is Mathlib's, through the
analysis, with respect to all nodal values of the parameter.
-/

noncomputable section
namespace Serac.C85
open Finset Serac.Tensor Serac.Transform Serac.Kernels Serac.Piola Serac.Loads Serac.Solid Serac.Deriv
open Serac.StaticAdj (multTranspose)
open Serac.C71 (M Shapes)
open Serac.C77 (one dot_one)
open scoped Topology Matrix

/-! ## Rectangular kernels -/

section Generic

/-- The matrix assembled from rectangular element matrices times a vector is the assembled action. -/
theorem assembleP_mul {E E' : Elem ℝ} {phi dphi wt phi' dphi'} (h : C51.Test E phi dphi wt) (h' : C51.Trial E' phi' dphi') {c : ℕ} (hc : 0 < c) (hd : 0 < E.dim) (z : Shape)
    (hz : E.dim = E'.dim ∨ (z.z10 && z.z11) = true) (D : Buffer ℝ) {nn nn' ne : ℕ} (conn : ℕ → ℕ → Fin nn) (conn' : ℕ → ℕ → Fin nn') (elements : List ℕ) (v : Fin nn' → Vec ℝ 1)
    (n : Fin nn) (i : Fin c) :
    scatterE E.ndof ne conn (actionKernel E E' c 1 z D elements (gatherE E'.ndof conn' v) fun _ => 0) n i =
      ∑ m, assembleP E.ndof E'.ndof ne conn conn' (gradientKernel E E' c 1 z D elements fun _ => 0) (n, i) m * v m 0 := by
  unfold scatterE assembleP
  have hm : ∀ e, ∀ a ∈ range E.ndof, actionKernel E E' c 1 z D elements (gatherE E'.ndof conn' v) (fun _ => 0) (e * (c * E.ndof) + (i * E.ndof + a)) =
      ∑ b ∈ range E'.ndof, gradientKernel E E' c 1 z D elements (fun _ => 0) ((e * (1 * E'.ndof) + b) * (c * E.ndof) + (i * E.ndof + a)) * v (conn' e b) 0 := by
    intro e a ha
    have := C51.C51_matrix h h' c 1 hc hd z hz D elements (gatherE E'.ndof conn' v) (fun _ => 0) (fun _ => 0) e _ (C77.idx_lt i (mem_range.1 ha))
    simp only [sub_zero] at this
    rw [this, one_mul]
    refine sum_congr rfl fun b hb => ?_
    have := C71.gather_at conn' v e (0 : Fin 1) (mem_range.1 hb)
    simp only [Fin.val_zero, zero_mul, zero_add, one_mul] at this
    rw [this]
  rw [sum_congr rfl fun e _ => sum_congr rfl fun a ha => by rw [hm e a ha]]
  simp only [sum_mul]
  refine Eq.symm ?_
  rw [sum_comm]
  refine sum_congr rfl fun e _ => ?_
  rw [sum_comm]
  refine sum_congr rfl fun a _ => ?_
  rw [sum_comm]
  by_cases hn : conn e a = n
  · rw [if_pos hn]
    refine sum_congr rfl fun b _ => ?_
    simp [hn]
  · simp [hn]

/-- The action of derivatives of a flux with respect to the value of a scalar field, tested. -/
theorem actionP_tested {E E' : Elem ℝ} {phi dphi wt phi' dphi'} (h : C51.Test E phi dphi wt) (h' : C51.Trial E' phi' dphi') {c dim : ℕ} (hc : 0 < c) (hd : E.dim = dim) (hd0 : 0 < dim)
    (hE : E.dim = E'.dim) (D : Buffer ℝ) {nn nn' ne : ℕ} (conn : ℕ → ℕ → Fin nn) (conn' : ℕ → ℕ → Fin nn') {l : List ℕ} (hl : ∀ e ∈ l, e < ne) (w : Fin nn' → Vec ℝ 1)
    (v : Fin nn → Vec ℝ c) :
    ∑ n, ∑ i, scatterE E.ndof ne conn (actionKernel E E' c 1 paramShape D l (gatherE E'.ndof conn' w) fun _ => 0) n i * v n i =
      (l.zipIdx.map fun ee => ∑ Q ∈ range E.npts, wt Q *
          ∑ i : Fin c, ∑ q : Fin dim, (D (ee.2 * E.npts + Q)).d10 i q 0 * (∑ a ∈ range E'.ndof, w (conn' ee.1 a) 0 * phi' Q a) *
            ∑ a ∈ range E.ndof, v (conn ee.1 a) i * dphi Q a q).sum := by
  refine (C77.form_tested (npts := E.npts) (dim := dim) conn wt phi dphi hl _ (fun _ _ _ => 0)
      (fun ee Q i q => (D (ee.2 * E.npts + Q)).d10 i q 0 * ∑ a ∈ range E'.ndof, w (conn' ee.1 a) 0 * phi' Q a) (fun e k hk i => ?_) v).trans ?_
  · obtain ⟨e1, e2⟩ := C75.at_div (p := (i : ℕ)) hk
    rw [C51.action_at h c 1 hc (by rw [hd]; exact hd0) paramShape D l _ _ e _ (C77.idx_lt i hk) (Or.inl hE), zero_add, e1, e2]
    congr 1
    refine List.map_congr_left fun ee _ => ?_
    by_cases he : ee.1 = e
    · rw [if_pos he, if_pos he]
      dsimp only
      unfold C51.weigh C51.dSource C51.dFlux
      subst hd
      refine sum_congr rfl fun Q _ => ?_
      have hds : ∀ f : ℕ → ℝ, ∑ j ∈ range E.dim, f j = ∑ j : Fin E.dim, f j := fun f => (Fin.sum_univ_eq_sum_range f E.dim).symm
      have hv := C77.value_at h' conn' w e Q (0 : Fin 1)
      simp only [Fin.val_zero] at hv
      beta_reduce
      rw [he, hds]
      simp only [sum_range_one, C51.e00, C51.e01, C51.e10, C51.e11, paramShape, if_true, Bool.false_eq_true, if_false, zero_mul, sum_const_zero, add_zero, hv]
    · rw [if_neg he, if_neg he]
  · congr 1
    refine List.map_congr_left fun ee _ => sum_congr rfl fun Q _ => ?_
    simp only [zero_mul, sum_const_zero, zero_add]

end Generic

/-! ## Spec -/

section Spec
variable {d : Dim} (V : Variant d) (s : Shapes) (φ : ℕ → ℕ → ℝ)

/-- The tables of the parameter's element are those of its shape functions `φ`. -/
structure Field (dφ : ℕ → ℕ → ℕ → ℝ) : Prop where
  trial : C51.Trial V.E φ dφ
  dim : V.E.dim = d.n

/-- The parameter field at point `Q` of element `e`. -/
def theta (q : Ode.Vec V.nn) (e Q : ℕ) : ℝ := ∑ a ∈ range V.E.ndof, q (V.conn e a) * φ Q a

/-- `∫ (∂σ/∂θ) θ(w) : ∇v` -/
def slopeForm (B : Slopes d) (u : Ode.Vec V.L.B.N) (q w : Ode.Vec V.nn) (v : Ode.Vec V.L.B.N) : ℝ := C73.integral V.L.B s V.L.B.S.elements fun ee Q =>
  ∑ i, ∑ m, B (ee.2 * V.L.B.S.E.npts + Q) (theta V φ q ee.1 Q) (C71.grad V.L.B.S s (V.L.B.nodal u) ee.1 Q) i m * theta V φ w ee.1 Q * C73.grd V.L.B s v ee.1 Q i m

/-- The flux as a function of gradient and parameter. -/
def flux (p : ℕ) (z : (Fin d.n → Fin d.n → ℝ) × ℝ) : Option (M d.n) := materialFlux (ops d) V.L.B.S.on (V.law p z.2) (Matrix.of z.1)

/-- Moduli that depend on the parameter. -/
abbrev Moduli2 (d : Dim) := ℕ → ℝ → M d.n → Fin d.n → Fin d.n → Fin d.n → Fin d.n → ℝ

/-- Gradient and parameter at a point. -/
def at' (u : Ode.Vec V.L.B.N) (q : Ode.Vec V.nn) (e Q : ℕ) : (Fin d.n → Fin d.n → ℝ) × ℝ := (C71.grad V.L.B.S s (V.L.B.nodal u) e Q, theta V φ q e Q)

/-- Near the gradients of `u` and the values of `q` the flux is defined, and it is differentiable there, jointly, with derivatives `A` and `B`. -/
def Tangent (A : Moduli2 d) (B : Slopes d) (u : Ode.Vec V.L.B.N) (q : Ode.Vec V.nn) : Prop := ∀ ee ∈ V.L.B.S.elements.zipIdx, ∀ Q < V.L.B.S.E.npts,
  let p := ee.2 * V.L.B.S.E.npts + Q
  let z := at' V s φ u q ee.1 Q
  (∀ᶠ y in 𝓝 z, (flux V p y).isSome) ∧
  ∀ i m, Diff (fun y => (flux V p y).getD 0 i m) (fun y => (∑ j, ∑ n, A p z.2 (Matrix.of z.1) i m j n * y.1 j n) + B p z.2 (Matrix.of z.1) i m * y.2) z

/-- and it is continuously differentiable there. -/
def Smooth (u : Ode.Vec V.L.B.N) (q : Ode.Vec V.nn) : Prop := ∀ ee ∈ V.L.B.S.elements.zipIdx, ∀ Q < V.L.B.S.E.npts,
  ∀ i m, ContDiffAt ℝ 1 (fun y => (flux V (ee.2 * V.L.B.S.E.npts + Q) y).getD 0 i m) (at' V s φ u q ee.1 Q)

end Spec

section Form
variable {d : Dim} {V : Variant d} {s sF : Shapes} {φ : ℕ → ℕ → ℝ} {dφ : ℕ → ℕ → ℕ → ℝ}

theorem getD_zipIdx {l : List ℕ} {ee : ℕ × ℕ} (h : ee ∈ l.zipIdx) : l.getD ee.2 0 = ee.1 := by
  rw [List.getD_eq_getElem?_getD, List.mk_mem_zipIdx_iff_getElem?.1 h, Option.getD_some]

/-- What the kernel hands to the material is the parameter field. -/
theorem value_eq (hP : Field V φ dφ) (q : Ode.Vec V.nn) {ee : ℕ × ℕ} (hee : ee ∈ V.L.B.S.elements.zipIdx) {Q : ℕ} (hQ : Q < V.L.B.S.E.npts) :
    V.value q (ee.2 * V.L.B.S.E.npts + Q) = theta V φ q ee.1 Q := by
  obtain ⟨q1, q2⟩ := C75.at_div (p := ee.2) hQ
  unfold Variant.value
  rw [q1, q2, getD_zipIdx hee]
  exact C77.value_at hP.trial V.conn (V.field q) ee.1 Q 0

theorem contract2 {n : ℕ} (B : Fin n → Fin n → ℝ) (Ji JTi W : Fin n → Fin n → ℝ) (hT : ∀ m q, JTi m q = Ji q m) (c x : ℝ) :
    ∑ i, ∑ q, (∑ m, B i m * JTi m q) * c * x * W i q = c * ∑ i, ∑ m, B i m * x * ∑ q, W i q * Ji q m := by
  rw [mul_sum]
  refine sum_congr rfl fun i _ => ?_
  simp only [hT, sum_mul, mul_sum]
  rw [sum_comm]
  exact sum_congr rfl fun m _ => sum_congr rfl fun q _ => by ring

/-- **C85, the form of the parameter derivative.**  The assembled matrix times a change of the parameter, tested with any vector: the slope of the flux times the change, against
the gradient; whatever the buffers held before. -/
theorem C85_form (hm : C71.Meaning V.L.B.S s) (hn : C71.Nondegenerate V.L.B.S s) (hP : Field V φ dφ) (B : Slopes d) (old : Buffer ℝ) (u v : Ode.Vec V.L.B.N) (q w : Ode.Vec V.nn) :
    ∑ k, C59.mulP (V.paramMatrix B old u q) w k * v k = slopeForm V s φ B u q w v := by
  have hd : 0 < d.n := by cases d <;> decide
  have hE : 0 < V.L.B.S.E.dim := by rw [hm.dim]; exact hd
  have hdim : V.L.B.S.E.dim = V.E.dim := hm.dim.trans hP.dim.symm
  have e1 : C59.mulP (V.paramMatrix B old u q) w = V.L.B.vector (scatterE V.L.B.S.E.ndof V.L.B.S.ne V.L.B.S.conn
      (actionKernel V.L.B.S.E V.E d.n 1 paramShape (V.paramBuffer B old (V.L.B.nodal u) q) V.L.B.S.elements (gatherE V.E.ndof V.conn (V.field w)) fun _ => 0)) := by
    funext k
    unfold C59.mulP Variant.paramMatrix Body.vector
    exact (assembleP_mul hm.test hP.trial hd hE paramShape (Or.inl hdim) _ V.L.B.S.conn V.conn _ (V.field w) _ _).symm
  rw [e1, C73.vector_dot, actionP_tested hm.test hP.trial hd hm.dim hd hdim _ V.L.B.S.conn V.conn hm.mem]
  unfold slopeForm C73.integral
  congr 1
  refine List.map_congr_left fun ee hee => sum_congr rfl fun Q hQ => ?_
  congr 1
  have hJ := hn ee.1 (C71.mem_zipIdx_fst hee) Q (mem_range.1 hQ)
  have hJT : ((C71.jac V.L.B.S s ee.1 Q)ᵀ).det ≠ 0 := by rwa [Matrix.det_transpose]
  obtain ⟨q1, q2⟩ := C75.at_div (p := ee.2) (mem_range.1 hQ)
  have hD : ∀ i l : Fin d.n, (V.paramBuffer B old (V.L.B.nodal u) q (ee.2 * V.L.B.S.E.npts + Q)).d10 i l 0 =
      (∑ m, B (ee.2 * V.L.B.S.E.npts + Q) (theta V φ q ee.1 Q) (C71.grad V.L.B.S s (V.L.B.nodal u) ee.1 Q) i m * (C71.jac V.L.B.S s ee.1 Q)ᵀ⁻¹ m l) *
        (C71.jac V.L.B.S s ee.1 Q).det := by
    intro i l
    unfold Variant.paramBuffer
    rw [C77.store_at _ _ _ hee (mem_range.1 hQ)]
    have hv := C77.value_at hP.trial V.conn (V.field q) ee.1 Q (0 : Fin 1)
    simp only [Fin.val_zero] at hv
    have h3 := C77.flat3_eq (fun (i l : Fin d.n) (_ : Fin 1) => (∑ m, B (ee.2 * V.L.B.S.E.npts + Q) (theta V φ q ee.1 Q) (C71.grad V.L.B.S s (V.L.B.nodal u) ee.1 Q) i m *
      (C71.jac V.L.B.S s ee.1 Q)ᵀ⁻¹ m l) * (C71.jac V.L.B.S s ee.1 Q).det) i l 0
    refine Eq.trans ?_ h3
    have hg : (Setup.interp (d := d) V.L.B.S.E (fun t => gatherE V.L.B.S.E.ndof V.L.B.S.conn (V.L.B.nodal u) (ee.1 * (d.n * V.L.B.S.E.ndof) + t)) Q).2 =
      C71.parGrad V.L.B.S s (V.L.B.nodal u) ee.1 Q := congrArg Prod.snd (C71.interp_eq hm.trial V.L.B.S.conn (V.L.B.nodal u) ee.1 Q)
    unfold Variant.paramGrad
    dsimp only
    rw [hv, q1, q2, C71.jacobian_eq hm hee, getD_zipIdx hee, hg, Transform.inv_eq d _ hJ, Tensor.transpose_eq, Transform.inv_eq d _ hJT, Transform.det_eq,
      Matrix.det_transpose]
    simp only [Option.getD_some, Tensor.dot_eq]
    rfl
  simp only [hD]
  exact contract2 _ _ _ (C71.parGrad V.L.B.S s (V.L.B.nodal v) ee.1 Q) (fun m q => by rw [← Matrix.transpose_nonsing_inv, Matrix.transpose_apply]) _ _

/-! ## The derivative of the residual -/

theorem sound (h : C84.Sound V.L s sF) (q : Ode.Vec V.nn) : C84.Sound (V.body q) s sF :=
  ⟨⟨h.meaning.trial, h.meaning.test, h.meaning.geom, h.meaning.dim, h.meaning.mem⟩, h.nondegenerate, h.domains, h.faces, h.loads⟩

/-- The parameter at a point as a linear map. -/
def thetaMap (V : Variant d) (φ : ℕ → ℕ → ℝ) (e Q : ℕ) : Ode.Vec V.nn →L[ℝ] ℝ :=
  LinearMap.toContinuousLinearMap
    { toFun := fun q => theta V φ q e Q
      map_add' := fun v w => by simp only [theta, Pi.add_apply, add_mul, sum_add_distrib]
      map_smul' := fun x v => by simp only [theta, Pi.smul_apply, smul_eq_mul, mul_assoc, mul_sum, RingHom.id_apply] }

/-- Gradient and parameter at a point as a linear map. -/
def pointMap (V : Variant d) (s : Shapes) (φ : ℕ → ℕ → ℝ) (e Q : ℕ) : (Ode.Vec V.L.B.N × Ode.Vec V.nn) →L[ℝ] (Fin d.n → Fin d.n → ℝ) × ℝ :=
  ((C77.gradMap V.L s e Q).comp (ContinuousLinearMap.fst ℝ _ _)).prod ((thetaMap V φ e Q).comp (ContinuousLinearMap.snd ℝ _ _))

theorem pointMap_apply (e Q : ℕ) (z : Ode.Vec V.L.B.N × Ode.Vec V.nn) : pointMap V s φ e Q z = at' V s φ z.1 z.2 e Q := rfl

/-- The flux the residual uses. -/
def fluxes (V : Variant d) (s : Shapes) (φ : ℕ → ℕ → ℝ) (z : Ode.Vec V.L.B.N × Ode.Vec V.nn) (ee : ℕ × ℕ) (Q : ℕ) : M d.n :=
  (flux V (ee.2 * V.L.B.S.E.npts + Q) (at' V s φ z.1 z.2 ee.1 Q)).getD 0

/-- The residual tested with one vector of the basis. -/
def weak (V : Variant d) (s sF : Shapes) (φ : ℕ → ℕ → ℝ) (a : Ode.Vec V.L.B.N) (t : ℝ) (k : Fin V.L.B.N) (z : Ode.Vec V.L.B.N × Ode.Vec V.nn) : ℝ :=
  C73.inertia V.L.B s a (one V.L k) +
      C73.integral V.L.B s V.L.B.S.elements (fun ee Q => ∑ i, ∑ j, fluxes V s φ z ee Q i j * C73.grd V.L.B s (one V.L k) ee.1 Q i j) - C73.load V.L.B s t (one V.L k) -
      C75.external V.L sF t z.1 (one V.L k)

theorem near {A : Moduli2 d} {B : Slopes d} {u : Ode.Vec V.L.B.N} {q : Ode.Vec V.nn} (hT : Tangent V s φ A B u q) :
    ∀ᶠ z in 𝓝 (u, q), ∀ ee ∈ V.L.B.S.elements.zipIdx, ∀ Q ∈ List.range V.L.B.S.E.npts, (flux V (ee.2 * V.L.B.S.E.npts + Q) (at' V s φ z.1 z.2 ee.1 Q)).isSome := by
  refine C77.eventually_list _ _ _ fun ee hee => C77.eventually_list _ _ _ fun Q hQ => ?_
  exact ((pointMap V s φ ee.1 Q).continuous.continuousAt (x := (u, q))).eventually (hT ee hee Q (List.mem_range.1 hQ)).1

theorem residual_eq (h : C84.Sound V.L s sF) (hP : Field V φ dφ) (a : Ode.Vec V.L.B.N) (t : ℝ) (k : Fin V.L.B.N) (z : Ode.Vec V.L.B.N × Ode.Vec V.nn)
    (hz : ∀ ee ∈ V.L.B.S.elements.zipIdx, ∀ Q ∈ List.range V.L.B.S.E.npts, (flux V (ee.2 * V.L.B.S.E.npts + Q) (at' V s φ z.1 z.2 ee.1 Q)).isSome) :
    V.residual t z.1 a z.2 k = weak V s sF φ a t k z := by
  have hs := sound h z.2
  have hst : C71.Stress (V.body z.2).B.S s ((V.body z.2).B.nodal z.1) (fluxes V s φ z) := by
    intro ee hee Q hQ
    obtain ⟨P, hP'⟩ := Option.isSome_iff_exists.1 (hz ee hee Q (List.mem_range.2 hQ))
    unfold fluxes
    rw [hP', Option.getD_some, ← hP']
    change materialFlux (ops d) V.L.B.S.on (V.law (ee.2 * V.L.B.S.E.npts + Q) (V.value z.2 (ee.2 * V.L.B.S.E.npts + Q))) _ = _
    rw [value_eq hP z.2 hee hQ]
    rfl
  have := C75.C75_weak_form hs.meaning hs.nondegenerate hs.domains hs.faces hs.loads t z.1 a (one V.L k) _ hst
  have e := dot_one (L := V.body z.2) ((V.body z.2).residual t z.1 a) k
  exact e.symm.trans this

theorem stiff_form (h : C84.Sound V.L s sF) (hP : Field V φ dφ) (A : Moduli2 d) (old : Buffer ℝ) (t : ℝ) (u w v : Ode.Vec V.L.B.N) (q : Ode.Vec V.nn) :
    ∑ k, Elim.mulVec (V.stiffMatrix A old t u q) w k * v k = C73.integral V.L.B s V.L.B.S.elements (fun ee Q =>
      ∑ i, ∑ m, ∑ j, ∑ n, A (ee.2 * V.L.B.S.E.npts + Q) (theta V φ q ee.1 Q) (C71.grad V.L.B.S s (V.L.B.nodal u) ee.1 Q) i m j n * C73.grd V.L.B s w ee.1 Q j n *
        C73.grd V.L.B s v ee.1 Q i m) - C77.followForm V.L sF t u w v := by
  have hs := sound h q
  have e1 := (C77.C77_matrix hs.meaning hs.faces (fun p H => A p (V.value q p) H) old old t u u w).1
  have e2 := C77.C77_form hs.meaning hs.nondegenerate hs.faces hs.loads (fun p H => A p (V.value q p) H) old t u w v
  rw [← e1] at e2
  refine e2.trans ?_
  refine congrArg₂ (· - ·) ?_ rfl
  unfold C77.stiffForm C73.integral
  congr 1
  refine List.map_congr_left fun ee hee => sum_congr rfl fun Q hQ => ?_
  have hv : V.value q (ee.2 * (V.body q).B.S.E.npts + Q) = theta V φ q ee.1 Q := value_eq hP q hee (mem_range.1 hQ)
  beta_reduce
  rw [hv]
  rfl

theorem diff_fst {E F : Type} [NormedAddCommGroup E] [NormedSpace ℝ E] [NormedAddCommGroup F] [NormedSpace ℝ F] {f f' : E → ℝ} {x : E} (h : Diff f f' x) (y : F) :
    Diff (fun z : E × F => f z.1) (fun z => f' z.1) (x, y) := by
  obtain ⟨L, h1, h2⟩ := h
  exact ⟨L.comp (ContinuousLinearMap.fst ℝ E F), fun z => h1 z.1, HasFDerivAt.comp (x, y) (f := Prod.fst) h2 hasFDerivAt_fst⟩

theorem fluxes_diff {A : Moduli2 d} {B : Slopes d} {u : Ode.Vec V.L.B.N} {q : Ode.Vec V.nn} (hT : Tangent V s φ A B u q) {ee : ℕ × ℕ} (hee : ee ∈ V.L.B.S.elements.zipIdx)
    {Q : ℕ} (hQ : Q < V.L.B.S.E.npts) (i m : Fin d.n) : Diff (fun z : Ode.Vec V.L.B.N × Ode.Vec V.nn => fluxes V s φ z ee Q i m)
      (fun z => (∑ j, ∑ n, A (ee.2 * V.L.B.S.E.npts + Q) (theta V φ q ee.1 Q) (C71.grad V.L.B.S s (V.L.B.nodal u) ee.1 Q) i m j n * C73.grd V.L.B s z.1 ee.1 Q j n) +
        B (ee.2 * V.L.B.S.E.npts + Q) (theta V φ q ee.1 Q) (C71.grad V.L.B.S s (V.L.B.nodal u) ee.1 Q) i m * theta V φ z.2 ee.1 Q) (u, q) := by
  obtain ⟨L, h1, h2⟩ := (hT ee hee Q hQ).2 i m
  refine ⟨L.comp (pointMap V s φ ee.1 Q), fun z => ?_, ?_⟩
  · rw [ContinuousLinearMap.comp_apply, h1]
    rfl
  · exact HasFDerivAt.comp (u, q) (f := pointMap V s φ ee.1 Q) h2 (pointMap V s φ ee.1 Q).hasFDerivAt

theorem residual_diff (h : C84.Sound V.L s sF) (hP : Field V φ dφ) {A : Moduli2 d} {B : Slopes d} {u : Ode.Vec V.L.B.N} {q : Ode.Vec V.nn} (hT : Tangent V s φ A B u q)
    (a : Ode.Vec V.L.B.N) (t : ℝ) (old old' : Buffer ℝ) (k : Fin V.L.B.N) : Diff (fun z : Ode.Vec V.L.B.N × Ode.Vec V.nn => V.residual t z.1 a z.2 k)
      (fun z => Elim.mulVec (V.stiffMatrix A old t u q) z.1 k + C59.mulP (V.paramMatrix B old' u q) z.2 k) (u, q) := by
  have hw : Diff (weak V s sF φ a t k) (fun z => 0 + C73.integral V.L.B s V.L.B.S.elements (fun ee Q =>
      ∑ i, ∑ m, ((∑ j, ∑ n, A (ee.2 * V.L.B.S.E.npts + Q) (theta V φ q ee.1 Q) (C71.grad V.L.B.S s (V.L.B.nodal u) ee.1 Q) i m j n * C73.grd V.L.B s z.1 ee.1 Q j n) +
        B (ee.2 * V.L.B.S.E.npts + Q) (theta V φ q ee.1 Q) (C71.grad V.L.B.S s (V.L.B.nodal u) ee.1 Q) i m * theta V φ z.2 ee.1 Q) * C73.grd V.L.B s (one V.L k) ee.1 Q i m) - 0 -
      C77.followForm V.L sF t u z.1 (one V.L k)) (u, q) := by
    refine Diff.sub (Diff.sub (Diff.add (Diff.const _ _) ?_) (Diff.const _ _)) (diff_fst (C77.external_diff t u _) q)
    unfold C73.integral
    refine Diff.list _ fun ee hee => Diff.sum _ fun Q hQ => Diff.const_mul _ (Diff.const_mul _ (Diff.sum _ fun i _ => Diff.sum _ fun m _ => Diff.mul_const _ ?_))
    exact fluxes_diff hT hee (mem_range.1 hQ) i m
  refine (hw.congr_near ?_).congr (fun z => rfl) fun z => ?_
  · filter_upwards [near hT] with z hz
    exact residual_eq h hP a t k z hz
  · have e1 := stiff_form h hP A old t u z.1 (one V.L k) q
    have e2 := C85_form h.meaning h.nondegenerate hP B old' u (one V.L k) q z.2
    rw [dot_one] at e1 e2
    rw [e1, e2]
    unfold slopeForm C73.integral
    rw [zero_add, sub_zero, sub_add_eq_add_sub]
    congr 1
    rw [← List.sum_map_add]
    congr 1
    refine List.map_congr_left fun ee _ => ?_
    rw [← sum_add_distrib]
    refine sum_congr rfl fun Q _ => ?_
    rw [← mul_add, ← mul_add, ← sum_add_distrib]
    congr 2
    refine sum_congr rfl fun i _ => ?_
    rw [← sum_add_distrib]
    refine sum_congr rfl fun m _ => ?_
    rw [add_mul, sum_mul]
    congr 1
    exact sum_congr rfl fun j _ => by rw [sum_mul]

/-- **C85, the derivative.**  Where the material is differentiable in gradient and parameter the residual is differentiable in displacement and parameter, jointly, and its derivative
is the two assembled matrices. -/
theorem C85_derivative (h : C84.Sound V.L s sF) (hP : Field V φ dφ) {A : Moduli2 d} {B : Slopes d} {u : Ode.Vec V.L.B.N} {q : Ode.Vec V.nn} (hT : Tangent V s φ A B u q)
    (a : Ode.Vec V.L.B.N) (t : ℝ) (old old' : Buffer ℝ) : ∃ D : (Ode.Vec V.L.B.N × Ode.Vec V.nn) →L[ℝ] Ode.Vec V.L.B.N,
      HasFDerivAt (fun z : Ode.Vec V.L.B.N × Ode.Vec V.nn => V.residual t z.1 a z.2) D (u, q) ∧
      ∀ v w, D (v, w) = Elim.mulVec (V.stiffMatrix A old t u q) v + C59.mulP (V.paramMatrix B old' u q) w := by
  obtain ⟨D, h1, h2⟩ := Diff.pi fun k => residual_diff h hP hT a t old old' k
  exact ⟨D, h2, fun v w => h1 (v, w)⟩

/-! ## Smoothness -/

theorem smooth_list {E ι : Type} [NormedAddCommGroup E] [NormedSpace ℝ E] {x : E} (l : List ι) {f : ι → E → ℝ} (h : ∀ i ∈ l, ContDiffAt ℝ 1 (f i) x) :
    ContDiffAt ℝ 1 (fun y => (l.map fun i => f i y).sum) x := by
  induction l with
  | nil => exact contDiffAt_const
  | cons a l ih => exact (h a List.mem_cons_self).add (ih fun i hi => h i (List.mem_cons_of_mem _ hi))

theorem area_smooth (X : Fin d.n → Fin (faceDim d) → ℝ) (i : Fin d.n) : ContDiff ℝ 1 fun H : Fin d.n → Fin (faceDim d) → ℝ => C75.area d (X + H) i := by
  have hc : ∀ (a : Fin d.n) (b : Fin (faceDim d)), ContDiff ℝ 1 fun H : Fin d.n → Fin (faceDim d) → ℝ => X a b + H a b := fun a b =>
    contDiff_const.add (contDiff_apply_apply ℝ ℝ a b)
  cases d with
  | two =>
    revert i
    change ∀ i : Fin 2, _
    intro i
    fin_cases i
    · exact hc 1 0
    · exact (hc 0 0).neg
  | three =>
    revert i
    change ∀ i : Fin 3, _
    intro i
    fin_cases i
    · exact ((hc 1 0).mul (hc 2 1)).sub ((hc 2 0).mul (hc 1 1))
    · exact ((hc 2 0).mul (hc 0 1)).sub ((hc 0 0).mul (hc 2 1))
    · exact ((hc 0 0).mul (hc 1 1)).sub ((hc 1 0).mul (hc 0 1))

theorem external_smooth {L : Loaded d} (t : ℝ) (u v : Ode.Vec L.B.N) : ContDiffAt ℝ 1 (fun w => C75.external L sF t w v) u := by
  unfold C75.external
  refine smooth_list _ fun l _ => ?_
  cases l with
  | traction l f => exact contDiffAt_const
  | pressure l f =>
    unfold C75.work C75.integral
    refine smooth_list _ fun ee _ => ContDiffAt.sum fun Q _ => contDiffAt_const.mul (ContDiffAt.neg (contDiffAt_const.mul (ContDiffAt.sum fun i _ => ContDiffAt.mul ?_ contDiffAt_const)))
    cases L.B.S.on
    · simp only [Bool.false_eq_true, if_false]
      exact contDiffAt_const
    · exact ((area_smooth (C75.tangents L.F sF L.B.S.pos ee.1 Q) i).comp (C77.derMap L sF ee.1 Q).contDiff).contDiffAt

theorem fluxes_smooth {u : Ode.Vec V.L.B.N} {q : Ode.Vec V.nn} (hS : Smooth V s φ u q) {ee : ℕ × ℕ} (hee : ee ∈ V.L.B.S.elements.zipIdx)
    {Q : ℕ} (hQ : Q < V.L.B.S.E.npts) (i m : Fin d.n) : ContDiffAt ℝ 1 (fun z : Ode.Vec V.L.B.N × Ode.Vec V.nn => fluxes V s φ z ee Q i m) (u, q) :=
  ContDiffAt.comp (u, q) (f := pointMap V s φ ee.1 Q) (hS ee hee Q hQ i m) (pointMap V s φ ee.1 Q).contDiff.contDiffAt

theorem residual_smooth (h : C84.Sound V.L s sF) (hP : Field V φ dφ) {A : Moduli2 d} {B : Slopes d} {u : Ode.Vec V.L.B.N} {q : Ode.Vec V.nn} (hT : Tangent V s φ A B u q)
    (hS : Smooth V s φ u q) (a : Ode.Vec V.L.B.N) (t : ℝ) (k : Fin V.L.B.N) : ContDiffAt ℝ 1 (fun z : Ode.Vec V.L.B.N × Ode.Vec V.nn => V.residual t z.1 a z.2 k) (u, q) := by
  have hw : ContDiffAt ℝ 1 (weak V s sF φ a t k) (u, q) := by
    refine ContDiffAt.sub (ContDiffAt.sub (ContDiffAt.add contDiffAt_const ?_) contDiffAt_const) (ContDiffAt.comp (u, q) (f := Prod.fst) (external_smooth t u _) contDiffAt_fst)
    unfold C73.integral
    refine smooth_list _ fun ee hee => ContDiffAt.sum fun Q hQ => contDiffAt_const.mul (contDiffAt_const.mul (ContDiffAt.sum fun i _ => ContDiffAt.sum fun m _ => ContDiffAt.mul ?_ contDiffAt_const))
    exact fluxes_smooth hS hee (mem_range.1 hQ) i m
  refine hw.congr_of_eventuallyEq ?_
  filter_upwards [near hT] with z hz
  exact residual_eq h hP a t k z hz

/-! ## Branches of equilibria -/

/-- `u` is in equilibrium at time `t` for parameters `q`, with boundary values `g` on the dofs `fixed`. -/
def Equilibrium (V : Variant d) (fixed : List (Fin V.L.B.N)) (g a : Ode.Vec V.L.B.N) (t : ℝ) (q : Ode.Vec V.nn) (u : Ode.Vec V.L.B.N) : Prop :=
  (∀ k ∈ fixed, u k = g k) ∧ ∀ k ∉ fixed, V.residual t u a q k = 0

/-- The map whose zeros are the equilibria. -/
def gap (V : Variant d) (fixed : List (Fin V.L.B.N)) (g a : Ode.Vec V.L.B.N) (t : ℝ) (z : Ode.Vec V.nn × Ode.Vec V.L.B.N) : Ode.Vec V.L.B.N :=
  fun k => if k ∈ fixed then z.2 k - g k else V.residual t z.2 a z.1 k

theorem gap_zero {fixed : List (Fin V.L.B.N)} {g a : Ode.Vec V.L.B.N} {t : ℝ} {q : Ode.Vec V.nn} {u : Ode.Vec V.L.B.N} : gap V fixed g a t (q, u) = 0 ↔ Equilibrium V fixed g a t q u := by
  constructor
  · intro h
    refine ⟨fun k hk => ?_, fun k hk => ?_⟩
    · have := congrFun h k
      simp only [gap, if_pos hk, Pi.zero_apply] at this
      linarith
    · have := congrFun h k
      simpa only [gap, if_neg hk, Pi.zero_apply] using this
  · rintro ⟨h1, h2⟩
    funext k
    by_cases hk : k ∈ fixed
    · simp only [gap, if_pos hk, h1 k hk, sub_self, Pi.zero_apply]
    · simp only [gap, if_neg hk, h2 k hk, Pi.zero_apply]

theorem gap_smooth (h : C84.Sound V.L s sF) (hP : Field V φ dφ) {A : Moduli2 d} {B : Slopes d} {u : Ode.Vec V.L.B.N} {q : Ode.Vec V.nn} (hT : Tangent V s φ A B u q)
    (hS : Smooth V s φ u q) (fixed : List (Fin V.L.B.N)) (g a : Ode.Vec V.L.B.N) (t : ℝ) : ContDiffAt ℝ 1 (gap V fixed g a t) (q, u) := by
  refine contDiffAt_pi.2 fun k => ?_
  by_cases hk : k ∈ fixed
  · simp only [gap, if_pos hk]
    exact ((contDiff_apply ℝ ℝ k).comp contDiff_snd).contDiffAt.sub contDiffAt_const
  · simp only [gap, if_neg hk]
    exact ContDiffAt.comp (q, u) (f := Prod.swap) (residual_smooth h hP hT hS a t k) (contDiff_snd.prodMk contDiff_fst).contDiffAt

/-- The derivative of the gap. -/
theorem gap_deriv (h : C84.Sound V.L s sF) (hP : Field V φ dφ) {A : Moduli2 d} {B : Slopes d} {u : Ode.Vec V.L.B.N} {q : Ode.Vec V.nn} (hT : Tangent V s φ A B u q)
    (old old' : Buffer ℝ) (fixed : List (Fin V.L.B.N)) (g a : Ode.Vec V.L.B.N) (t : ℝ) :
    ∃ D : (Ode.Vec V.nn × Ode.Vec V.L.B.N) →L[ℝ] Ode.Vec V.L.B.N, HasFDerivAt (gap V fixed g a t) D (q, u) ∧
      ∀ w v k, D (w, v) k = if k ∈ fixed then v k else Elim.mulVec (V.stiffMatrix A old t u q) v k + C59.mulP (V.paramMatrix B old' u q) w k := by
  obtain ⟨D, h1, h2⟩ := Diff.pi (f := fun z k => gap V fixed g a t z k)
    (f' := fun (z : Ode.Vec V.nn × Ode.Vec V.L.B.N) k => if k ∈ fixed then z.2 k else Elim.mulVec (V.stiffMatrix A old t u q) z.2 k + C59.mulP (V.paramMatrix B old' u q) z.1 k)
    (x := (q, u)) fun k => by
      by_cases hk : k ∈ fixed
      · simp only [gap, if_pos hk]
        exact ⟨(ContinuousLinearMap.proj (R := ℝ) (φ := fun _ : Fin V.L.B.N => ℝ) k).comp (ContinuousLinearMap.snd ℝ _ _), fun _ => rfl,
          ((ContinuousLinearMap.proj (R := ℝ) (φ := fun _ : Fin V.L.B.N => ℝ) k).comp (ContinuousLinearMap.snd ℝ (Ode.Vec V.nn) (Ode.Vec V.L.B.N))).hasFDerivAt.sub_const _⟩
      · simp only [gap, if_neg hk]
        obtain ⟨L, h1, h2⟩ := residual_diff h hP hT a t old old' k
        refine ⟨L.comp ((ContinuousLinearMap.snd ℝ _ _).prod (ContinuousLinearMap.fst ℝ _ _)), fun z => h1 (z.2, z.1), ?_⟩
        exact HasFDerivAt.comp (q, u) (f := fun z : Ode.Vec V.nn × Ode.Vec V.L.B.N => (z.2, z.1)) h2 (hasFDerivAt_snd.prodMk hasFDerivAt_fst)
  exact ⟨D, h2, fun w v k => congrFun (h1 (w, v)) k⟩

/-- **C85, branches.**  A regular equilibrium of a smooth material lies on a branch of equilibria that is differentiable in the parameters; close to it there are no other
equilibria; and the branch moves by the solution of the linear system with the two assembled matrices. -/
theorem C85_branch (h : C84.Sound V.L s sF) (hP : Field V φ dφ) {A : Moduli2 d} {B : Slopes d} {u : Ode.Vec V.L.B.N} {q : Ode.Vec V.nn} (hT : Tangent V s φ A B u q)
    (hS : Smooth V s φ u q) {fixed : List (Fin V.L.B.N)} {g a : Ode.Vec V.L.B.N} {t : ℝ} (old old' : Buffer ℝ) (hu : Equilibrium V fixed g a t q u)
    (hreg : ∀ w, Elim.mulVec (Elim.elim (V.stiffMatrix A old t u q) fixed) w = 0 → w = 0) :
    ∃ (U : Ode.Vec V.nn → Ode.Vec V.L.B.N) (D : Ode.Vec V.nn →L[ℝ] Ode.Vec V.L.B.N), U q = u ∧ HasFDerivAt U D q ∧ (∀ᶠ q' in 𝓝 q, Equilibrium V fixed g a t q' (U q')) ∧
      (∀ᶠ z : Ode.Vec V.nn × Ode.Vec V.L.B.N in 𝓝 (q, u), Equilibrium V fixed g a t z.1 z.2 → z.2 = U z.1) ∧
      ∀ w, (∀ k ∈ fixed, D w k = 0) ∧ ∀ k ∉ fixed, Elim.mulVec (V.stiffMatrix A old t u q) (D w) k = -C59.mulP (V.paramMatrix B old' u q) w k := by
  obtain ⟨D, hD, hDa⟩ := gap_deriv h hP hT old old' fixed g a t
  have hs : HasStrictFDerivAt (gap V fixed g a t) D (q, u) := (gap_smooth h hP hT hS fixed g a t).hasStrictFDerivAt' hD one_ne_zero
  have h0 : gap V fixed g a t (q, u) = 0 := gap_zero.2 hu
  obtain ⟨D2, hD2⟩ : ∃ D2 : Ode.Vec V.L.B.N →L[ℝ] Ode.Vec V.L.B.N, D2 = D ∘L ContinuousLinearMap.inr ℝ (Ode.Vec V.nn) (Ode.Vec V.L.B.N) := ⟨_, rfl⟩
  have hD2a : ∀ v, D2 v = Elim.mulVec (C83.rows (V.stiffMatrix A old t u q) fixed) v := by
    intro v
    funext k
    rw [C83.rows_apply, hD2]
    refine (hDa 0 v k).trans ?_
    have : C59.mulP (V.paramMatrix B old' u q) 0 k = 0 := by simp [C59.mulP]
    rw [this, add_zero]
  have hinj : Function.Injective D2 := by
    rw [injective_iff_map_eq_zero]
    intro v hv
    rw [hD2a] at hv
    exact C83.rows_injective.1 hreg v hv
  have hinv : D2.IsInvertible := by
    let e : Ode.Vec V.L.B.N ≃ₗ[ℝ] Ode.Vec V.L.B.N := LinearEquiv.ofInjectiveEndo D2.toLinearMap hinj
    exact ⟨e.toContinuousLinearEquiv, by ext1 v; rfl⟩
  have key : ∀ w, D2 ((-D2.inverse ∘L (D ∘L ContinuousLinearMap.inl ℝ (Ode.Vec V.nn) (Ode.Vec V.L.B.N))) w) = -D (w, 0) := by
    intro w
    rw [neg_apply, map_neg, ContinuousLinearMap.comp_apply]
    congr 1
    obtain ⟨e, rfl⟩ := hinv
    rw [ContinuousLinearMap.inverse_equiv]
    exact e.apply_symm_apply _
  have hk : ∀ w k, Elim.mulVec (C83.rows (V.stiffMatrix A old t u q) fixed) ((-D2.inverse ∘L (D ∘L ContinuousLinearMap.inl ℝ (Ode.Vec V.nn) (Ode.Vec V.L.B.N))) w) k =
      -D (w, 0) k := fun w k => by
    rw [← hD2a, key]
    rfl
  subst hD2
  refine ⟨hs.implicitFunctionOfProdDomain hinv, _, ?_, (hs.hasStrictFDerivAt_implicitFunctionOfProdDomain hinv).hasFDerivAt, ?_, ?_, ?_⟩
  · exact (hs.eventually_apply_eq_iff_implicitFunctionOfProdDomain hinv).self_of_nhds.1 rfl
  · filter_upwards [hs.eventually_apply_implicitFunctionOfProdDomain hinv] with q' hq'
    exact gap_zero.1 (hq'.trans h0)
  · filter_upwards [hs.eventually_apply_eq_iff_implicitFunctionOfProdDomain hinv] with z hz hE
    exact (hz.1 ((gap_zero.2 hE).trans h0.symm)).symm
  · intro w
    refine ⟨fun k hf => ?_, fun k hf => ?_⟩
    · have := hk w k
      rw [C83.rows_apply, if_pos hf, hDa, if_pos hf] at this
      rw [this]
      simp
    · have := hk w k
      rw [C83.rows_apply, if_neg hf, hDa, if_neg hf] at this
      rw [this]
      have : Elim.mulVec (V.stiffMatrix A old t u q) 0 k = 0 := by simp [Elim.mulVec]
      rw [this, zero_add]

/-! ## Gradients -/

open Serac.StaticAdj (pass forward start)
open Serac.C59 (traj time)

/-- Spec: an analysis of `N` steps near the parameters `q`.  At the end of each step the material is smooth where it is evaluated and the equilibrium is regular; for nearby
parameters the analysis stays nearby, is in equilibrium and has the same prescribed values. -/
structure Run (V : Variant d) (s : Shapes) (φ : ℕ → ℕ → ℝ) (A : Moduli2 d) (B : Slopes d) (old old' : Buffer ℝ) (a : Ode.Vec V.L.B.N)
    (conds : List (List (Fin V.L.B.N))) (solve : ℝ → Ode.Vec V.nn → Ode.Vec V.L.B.N → Ode.Vec V.L.B.N) (linear : Elim.Mat V.L.B.N → Ode.Vec V.L.B.N → Ode.Vec V.L.B.N)
    (t0 : ℝ) (dt : ℕ → ℝ) (u0 : Ode.Vec V.L.B.N) (N : ℕ) (q : Ode.Vec V.nn) : Prop where
  tangent : ∀ k, 1 ≤ k → k ≤ N → Tangent V s φ A B (traj (V.analysis A B old old' a conds solve linear) t0 dt u0 q k) q
  smooth : ∀ k, 1 ≤ k → k ≤ N → Smooth V s φ (traj (V.analysis A B old old' a conds solve linear) t0 dt u0 q k) q
  regular : ∀ k, 1 ≤ k → k ≤ N → ∀ w,
    Elim.mulVec (Elim.elim (V.stiffMatrix A old (time t0 dt k) (traj (V.analysis A B old old' a conds solve linear) t0 dt u0 q k) q) conds.flatten) w = 0 → w = 0
  near : ∀ k, 1 ≤ k → k ≤ N → ContinuousAt (fun q' => traj (V.analysis A B old old' a conds solve linear) t0 dt u0 q' k) q
  solved : ∀ k, 1 ≤ k → k ≤ N → ∀ᶠ q' in 𝓝 q, Equilibrium V conds.flatten (traj (V.analysis A B old old' a conds solve linear) t0 dt u0 q k) a (time t0 dt k) q'
    (traj (V.analysis A B old old' a conds solve linear) t0 dt u0 q' k)

/-- Eliminating from the transpose leaves a regular matrix. -/
theorem elim_transpose {n : ℕ} (K : Elim.Mat n) (l : List (Fin n)) (h : ∀ w, Elim.mulVec (Elim.elim K l) w = 0 → w = 0) (b : Elim.Vec n) :
    ∃ x, Elim.mulVec (Elim.elim (Adj.transpose K) l) x = b := by
  have e : ∀ w, Elim.mulVec (Elim.elim (Adj.transpose K) l) w = Matrix.mulVec (Matrix.transpose (Matrix.of (Elim.elim K l))) w := by
    intro w
    funext i
    simp only [Elim.mulVec, Matrix.mulVec, dotProduct, Matrix.transpose_apply, Matrix.of_apply]
    refine sum_congr rfl fun j _ => ?_
    congr 1
    simp only [Elim.elim, Adj.transpose]
    by_cases hi : i ∈ l <;> by_cases hj : j ∈ l <;> simp [hi, hj, eq_comm]
  have hu : IsUnit (Matrix.of (Elim.elim K l)) := by
    rw [← Matrix.mulVec_injective_iff_isUnit]
    intro x y hxy
    have : Elim.mulVec (Elim.elim K l) (x - y) = 0 := by
      have h1 : Matrix.mulVec (Matrix.of (Elim.elim K l)) (x - y) = 0 := by rw [Matrix.mulVec_sub, hxy, sub_self]
      exact h1
    exact sub_eq_zero.1 (h _ this)
  have hut : IsUnit (Matrix.transpose (Matrix.of (Elim.elim K l))) := (Matrix.isUnit_transpose _).2 hu
  obtain ⟨x, hx⟩ := (Matrix.mulVec_surjective_iff_isUnit.2 hut) b
  exact ⟨x, (e x).trans hx⟩

section
variable {A : Moduli2 d} {B : Slopes d} {old old' : Buffer ℝ} {a : Ode.Vec V.L.B.N} {conds : List (List (Fin V.L.B.N))}
  {solve : ℝ → Ode.Vec V.nn → Ode.Vec V.L.B.N → Ode.Vec V.L.B.N} {linear : Elim.Mat V.L.B.N → Ode.Vec V.L.B.N → Ode.Vec V.L.B.N}
  {t0 : ℝ} {dt : ℕ → ℝ} {u0 : Ode.Vec V.L.B.N} {N : ℕ} {q : Ode.Vec V.nn}

/-- Displacements of the analysis are differentiable in the parameters. -/
theorem Run.diff (hR : Run V s φ A B old old' a conds solve linear t0 dt u0 N q) (h : C84.Sound V.L s sF) (hP : Field V φ dφ) (k : ℕ) (h1 : 1 ≤ k) (hk : k ≤ N) :
    ∃ D : Ode.Vec V.nn →L[ℝ] Ode.Vec V.L.B.N, HasFDerivAt (fun q' => traj (V.analysis A B old old' a conds solve linear) t0 dt u0 q' k) D q := by
  obtain ⟨U, D, hU, hD, -, huniq, -⟩ := C85_branch h hP (hR.tangent k h1 hk) (hR.smooth k h1 hk) old old' (hR.solved k h1 hk).self_of_nhds (hR.regular k h1 hk)
  refine ⟨D, hD.congr_of_eventuallyEq ?_⟩
  have hc : Filter.Tendsto (fun q' => (q', traj (V.analysis A B old old' a conds solve linear) t0 dt u0 q' k)) (𝓝 q)
      (𝓝 (q, traj (V.analysis A B old old' a conds solve linear) t0 dt u0 q k)) := (continuousAt_id.prodMk (hR.near k h1 hk))
  filter_upwards [hc.eventually huniq, hR.solved k h1 hk] with q' h2 h3
  exact h2 h3

theorem Run.diffs (hR : Run V s φ A B old old' a conds solve linear t0 dt u0 N q) (h : C84.Sound V.L s sF) (hP : Field V φ dφ) :
    ∃ D : ℕ → Ode.Vec V.nn →L[ℝ] Ode.Vec V.L.B.N, ∀ k, 1 ≤ k → k ≤ N →
      HasFDerivAt (fun q' => traj (V.analysis A B old old' a conds solve linear) t0 dt u0 q' k) (D k) q := by
  have hex : ∀ k, ∃ D : Ode.Vec V.nn →L[ℝ] Ode.Vec V.L.B.N, 1 ≤ k → k ≤ N →
      HasFDerivAt (fun q' => traj (V.analysis A B old old' a conds solve linear) t0 dt u0 q' k) D q := by
    intro k
    by_cases hk : 1 ≤ k ∧ k ≤ N
    · obtain ⟨D, hD⟩ := hR.diff h hP k hk.1 hk.2
      exact ⟨D, fun _ _ => hD⟩
    · exact ⟨0, fun h1 h2 => absurd ⟨h1, h2⟩ hk⟩
  choose D hD using hex
  exact ⟨D, hD⟩

/-- Along lines the analysis is a family in the sense of C59. -/
theorem Run.family (hR : Run V s φ A B old old' a conds solve linear t0 dt u0 N q) (h : C84.Sound V.L s sF) (hP : Field V φ dφ) (hl : C78.Exact linear)
    (D : ℕ → Ode.Vec V.nn →L[ℝ] Ode.Vec V.L.B.N)
    (hD : ∀ k, 1 ≤ k → k ≤ N → HasFDerivAt (fun q' => traj (V.analysis A B old old' a conds solve linear) t0 dt u0 q' k) (D k) q) (w : Ode.Vec V.nn) :
    C59.Family (V.analysis A B old old' a conds solve linear) t0 dt u0 N (fun r => q + r • w) w (fun k => D k w) 0 := by
  have hq : q + (0 : ℝ) • w = q := by rw [zero_smul, add_zero]
  have hp : HasDerivAt (fun r : ℝ => q + r • w) w 0 := by
    simpa using ((hasDerivAt_id (0 : ℝ)).smul_const w).const_add q
  have ht : Filter.Tendsto (fun r : ℝ => q + r • w) (𝓝 0) (𝓝 q) := by
    have := hp.continuousAt.tendsto
    rwa [hq] at this
  refine ⟨hp, fun k h1 hk => ?_, fun k h1 hk i hi => ?_, fun k h1 hk i hi => ?_, fun k h1 hk => ?_, fun k h1 hk b => ?_⟩
  · have := hD k h1 hk
    rw [← hq] at this
    exact this.comp_hasDerivAt (0 : ℝ) hp
  · filter_upwards [ht.eventually (hR.solved k h1 hk)] with r hr
    exact hr.2 i fun hi' => hi (by rwa [List.mem_flatten] at hi')
  · rw [hq]
    filter_upwards [ht.eventually (hR.solved k h1 hk)] with r hr
    exact hr.1 i (by rwa [List.mem_flatten])
  · rw [hq]
    exact C85_derivative h hP (hR.tangent k h1 hk) a (time t0 dt k) old old'
  · rw [hq]
    intro M
    have hM : M = Elim.elim (Adj.transpose (V.stiffMatrix A old (time t0 dt k) (traj (V.analysis A B old old' a conds solve linear) t0 dt u0 q k) q)) conds.flatten :=
      (C26.applyAll_spec _ _ _ _).1
    rw [hM]
    exact hl _ _ (elim_transpose _ _ (hR.regular k h1 hk) b)

/-- **C85, gradients.**  The analysis followed by the adjoint pass: the sum of the sensitivities that the pass returns is the gradient, with respect to the nodal values of the
parameter, of any differentiable objective of the displacements of all steps. -/
theorem C85_gradient (hR : Run V s φ A B old old' a conds solve linear t0 dt u0 N q) (h : C84.Sound V.L s sF) (hP : Field V φ dφ) (hl : C78.Exact linear)
    (J : (Fin N → Ode.Vec V.L.B.N) → ℝ) (g : ℕ → Ode.Vec V.L.B.N)
    (hJ : C59.Gradient J (fun k => traj (V.analysis A B old old' a conds solve linear) t0 dt u0 q (k + 1)) g) :
    ∃ r, pass (V.analysis A B old old' a conds solve linear) q (C59.loads g N)
        (forward (V.analysis A B old old' a conds solve linear) q (C59.steps dt N) (start t0 u0)) = some r ∧
      ∃ G : Ode.Vec V.nn →L[ℝ] ℝ, HasFDerivAt (fun q' => J fun k : Fin N => traj (V.analysis A B old old' a conds solve linear) t0 dt u0 q' (k + 1)) G q ∧
        ∀ w, G w = r.1.sum ⬝ᵥ w := by
  obtain ⟨D, hD⟩ := hR.diffs h hP
  have hq : ∀ w : Ode.Vec V.nn, q + (0 : ℝ) • w = q := fun w => by rw [zero_smul, add_zero]
  have hg : ∀ w, ∃ r, pass (V.analysis A B old old' a conds solve linear) q (C59.loads g N)
      (forward (V.analysis A B old old' a conds solve linear) q (C59.steps dt N) (start t0 u0)) = some r ∧
      HasDerivAt (fun e : ℝ => J fun k : Fin N => traj (V.analysis A B old old' a conds solve linear) t0 dt u0 (q + e • w) (k + 1)) (r.1.sum ⬝ᵥ w) 0 := by
    intro w
    have := C59.C59_gradient (hR.family h hP hl D hD w) J g (by rw [hq]; exact hJ)
    rw [hq] at this
    exact this
  obtain ⟨r, hr, -⟩ := hg 0
  obtain ⟨L, hL, -⟩ := hJ
  have hd : HasFDerivAt (fun q' => fun k : Fin N => traj (V.analysis A B old old' a conds solve linear) t0 dt u0 q' (k + 1))
      (ContinuousLinearMap.pi fun k : Fin N => D (k + 1)) q := hasFDerivAt_pi.2 fun k => hD (k + 1) (by omega) (by have := k.2; omega)
  have hc : HasFDerivAt (fun q' => J fun k : Fin N => traj (V.analysis A B old old' a conds solve linear) t0 dt u0 q' (k + 1)) (L.comp _) q := hL.comp q hd
  refine ⟨r, hr, _, hc, fun w => ?_⟩
  obtain ⟨r', hr', hw⟩ := hg w
  rw [hr, Option.some.injEq] at hr'
  subst hr'
  have hp : HasDerivAt (fun r : ℝ => q + r • w) w 0 := by
    simpa using ((hasDerivAt_id (0 : ℝ)).smul_const w).const_add q
  rw [← hq w] at hc
  have hc2 := hc.comp_hasDerivAt (0 : ℝ) hp
  exact hc2.unique hw

/-- **C85, reactions.**  The two sensitivities of the reactions of the last step add up to their derivative along every change of the parameters. -/
theorem C85_reactions (hR : Run V s φ A B old old' a conds solve linear t0 dt u0 N q) (h : C84.Sound V.L s sF) (hP : Field V φ dφ) (hl : C78.Exact linear) (hN : 0 < N)
    (v : Ode.Vec V.L.B.N) :
    ∃ x y, C59.reactionSensitivity (V.analysis A B old old' a conds solve linear) q v
        (forward (V.analysis A B old old' a conds solve linear) q (C59.steps dt N) (start t0 u0)) = some (x, y) ∧
      ∀ w, HasDerivAt (fun e : ℝ => v ⬝ᵥ (forward (V.analysis A B old old' a conds solve linear) (q + e • w) (C59.steps dt N) (start t0 u0)).reactions) ((x + y) ⬝ᵥ w) 0 := by
  obtain ⟨D, hD⟩ := hR.diffs h hP
  have hg : ∀ w, ∃ x y, C59.reactionSensitivity (V.analysis A B old old' a conds solve linear) q v
      (forward (V.analysis A B old old' a conds solve linear) q (C59.steps dt N) (start t0 u0)) = some (x, y) ∧
      HasDerivAt (fun e : ℝ => v ⬝ᵥ (forward (V.analysis A B old old' a conds solve linear) (q + e • w) (C59.steps dt N) (start t0 u0)).reactions) ((x + y) ⬝ᵥ w) 0 := by
    intro w
    have := C59.C59_reaction (hR.family h hP hl D hD w) hN v
    rw [zero_smul, add_zero] at this
    exact this
  obtain ⟨x, y, hxy, -⟩ := hg 0
  refine ⟨x, y, hxy, fun w => ?_⟩
  obtain ⟨x', y', hxy', hw⟩ := hg w
  rw [hxy, Option.some.injEq, Prod.mk.injEq] at hxy'
  obtain ⟨rfl, rfl⟩ := hxy'
  exact hw

end

/-! ## Which analyses are such runs -/

/-- Solutions that stay on the branches are given by some solver. -/
theorem C85_solver (h : C84.Sound V.L s sF) (hP : Field V φ dφ) {A : Moduli2 d} {B : Slopes d} (old old' : Buffer ℝ) {a : Ode.Vec V.L.B.N} {conds : List (List (Fin V.L.B.N))}
    (linear : Elim.Mat V.L.B.N → Ode.Vec V.L.B.N → Ode.Vec V.L.B.N) {t0 : ℝ} {dt : ℕ → ℝ} (hdt : ∀ k, 0 < dt k) {N : ℕ} {q : Ode.Vec V.nn} (z : ℕ → Ode.Vec V.L.B.N)
    (hT : ∀ k, 1 ≤ k → k ≤ N → Tangent V s φ A B (z k) q) (hS : ∀ k, 1 ≤ k → k ≤ N → Smooth V s φ (z k) q)
    (hz : ∀ k, 1 ≤ k → k ≤ N → Equilibrium V conds.flatten (z k) a (time t0 dt k) q (z k))
    (hreg : ∀ k, 1 ≤ k → k ≤ N → ∀ w, Elim.mulVec (Elim.elim (V.stiffMatrix A old (time t0 dt k) (z k) q) conds.flatten) w = 0 → w = 0) :
    ∃ solve, Run V s φ A B old old' a conds solve linear t0 dt (z 0) N q ∧ ∀ k ≤ N, traj (V.analysis A B old old' a conds solve linear) t0 dt (z 0) q k = z k := by
  classical
  have hb : ∀ k, ∃ U : Ode.Vec V.nn → Ode.Vec V.L.B.N, 1 ≤ k → k ≤ N → U q = z k ∧ ContinuousAt U q ∧ ∀ᶠ q' in 𝓝 q, Equilibrium V conds.flatten (z k) a (time t0 dt k) q' (U q') := by
    intro k
    by_cases hk : 1 ≤ k ∧ k ≤ N
    · obtain ⟨U, D, h1, h2, h3, -⟩ := C85_branch h hP (hT k hk.1 hk.2) (hS k hk.1 hk.2) old old' (hz k hk.1 hk.2) (hreg k hk.1 hk.2)
      exact ⟨U, fun _ _ => ⟨h1, h2.continuousAt, h3⟩⟩
    · exact ⟨fun _ => 0, fun h1 h2 => absurd ⟨h1, h2⟩ hk⟩
  choose U hU using hb
  have hmono : StrictMono (time t0 dt) := strictMono_nat_of_lt_succ fun k => by
    unfold time
    rw [sum_range_succ]
    linarith [hdt k]
  refine ⟨fun t q' _ => if hk : ∃ k, t = time t0 dt k then U hk.choose q' else 0, ?_⟩
  set solve : ℝ → Ode.Vec V.nn → Ode.Vec V.L.B.N → Ode.Vec V.L.B.N := fun t q' _ => if hk : ∃ k, t = time t0 dt k then U hk.choose q' else 0 with hsolve
  have htr : ∀ q' k, 1 ≤ k → traj (V.analysis A B old old' a conds solve linear) t0 dt (z 0) q' k = U k q' := by
    intro q' k h1
    obtain ⟨j, rfl⟩ : ∃ j, k = j + 1 := ⟨k - 1, by omega⟩
    change solve (time t0 dt (j + 1)) q' (traj (V.analysis A B old old' a conds solve linear) t0 dt (z 0) q' j) = _
    have hex : ∃ k, time t0 dt (j + 1) = time t0 dt k := ⟨j + 1, rfl⟩
    rw [hsolve]
    beta_reduce
    rw [dif_pos hex, ← hmono.injective hex.choose_spec]
  have hq : ∀ k, 1 ≤ k → k ≤ N → traj (V.analysis A B old old' a conds solve linear) t0 dt (z 0) q k = z k := fun k h1 hk => (htr q k h1).trans (hU k h1 hk).1
  refine ⟨⟨fun k h1 hk => ?_, fun k h1 hk => ?_, fun k h1 hk => ?_, fun k h1 hk => ?_, fun k h1 hk => ?_⟩, fun k hk => ?_⟩
  · rw [hq k h1 hk]
    exact hT k h1 hk
  · rw [hq k h1 hk]
    exact hS k h1 hk
  · rw [hq k h1 hk]
    exact hreg k h1 hk
  · rw [funext fun q' => htr q' k h1]
    exact (hU k h1 hk).2.1
  · rw [hq k h1 hk]
    filter_upwards [(hU k h1 hk).2.2] with q' h2
    rw [htr q' k h1]
    exact h2
  · rcases Nat.eq_zero_or_pos k with rfl | h1
    · rfl
    · exact hq k h1 hk

/-- For fixed parameters: a tangent in the sense of C77. -/
theorem Tangent.body {A : Moduli2 d} {B : Slopes d} {u : Ode.Vec V.L.B.N} {q : Ode.Vec V.nn} (hT : Tangent V s φ A B u q) (hP : Field V φ dφ) :
    C77.Tangent (V.body q) s (fun p H => A p (V.value q p) H) u := by
  intro ee hee Q hQ
  obtain ⟨h1, h2⟩ := hT ee hee Q hQ
  have hv : V.value q (ee.2 * (V.body q).B.S.E.npts + Q) = theta V φ q ee.1 Q := value_eq hP q hee hQ
  have hfl : ∀ G : Fin d.n → Fin d.n → ℝ, materialFlux (ops d) (V.body q).B.S.on ((V.body q).B.S.material (ee.2 * (V.body q).B.S.E.npts + Q)) (Matrix.of G) =
      flux V (ee.2 * V.L.B.S.E.npts + Q) (G, theta V φ q ee.1 Q) := by
    intro G
    change materialFlux (ops d) V.L.B.S.on (V.law (ee.2 * V.L.B.S.E.npts + Q) (V.value q (ee.2 * V.L.B.S.E.npts + Q))) _ = _
    rw [show V.value q (ee.2 * V.L.B.S.E.npts + Q) = theta V φ q ee.1 Q from hv]
    rfl
  dsimp only
  simp only [hfl, hv]
  refine ⟨?_, fun i m => ?_⟩
  · exact ((Continuous.prodMk_left (theta V φ q ee.1 Q)).continuousAt (x := (C71.grad V.L.B.S s (V.L.B.nodal u) ee.1 Q : Fin d.n → Fin d.n → ℝ))).eventually h1
  · obtain ⟨L, l1, l2⟩ := h2 i m
    refine ⟨L.comp (ContinuousLinearMap.inl ℝ _ _), fun G => (l1 (G, 0)).trans ?_, ?_⟩
    · beta_reduce
      rw [mul_zero, add_zero]
      rfl
    · exact HasFDerivAt.comp (f := fun G : Fin d.n → Fin d.n → ℝ => (G, theta V φ q ee.1 Q)) _ l2 (hasFDerivAt_prodMk_left _ _)

/-- **C85, linear elastic bodies.**  With the code's own solver (warm start, Newton's method with exact linear solves), supported linear elastic bodies give such runs, for loads
and boundary values that change in any way from step to step. -/
theorem C85_linear (h : C84.Sound V.L s sF) (hP : Field V φ dφ) {A : Moduli2 d} {B : Slopes d} {q : Ode.Vec V.nn} {C : Ode.Vec V.nn → ℕ → M d.n →ₗ[ℝ] M d.n}
    {b : Ode.BCs V.L.B.N} {g : ℝ → Ode.Vec V.L.B.N} (hG : ∀ᶠ q' in 𝓝 q, C78.Good (V.body q') s sF (C q') ∧ C78.Supported (V.body q') s (C q') b.allDofs)
    (hT : ∀ᶠ q' in 𝓝 q, ∀ u, Tangent V s φ A B u q') (hS : ∀ u, Smooth V s φ u q) (hg : Ode.Prescribes b g) (hnd : b.allDofs.Nodup) {conds : List (List (Fin V.L.B.N))}
    (hc : conds.flatten = b.allDofs) {o : StaticSolver V.L.B.N} (hlin : C78.Exact o.linear) (hnorm : C78.Length o.norm) (hw : o.warm = true) (old old' : Buffer ℝ)
    {solve : ℝ → Ode.Vec V.nn → Ode.Vec V.L.B.N → Ode.Vec V.L.B.N} (linear : Elim.Mat V.L.B.N → Ode.Vec V.L.B.N → Ode.Vec V.L.B.N)
    (hsolve : ∀ t q' u, ∃ (x : StaticState V.L.B.N) (dt : ℝ), x.time + dt = t ∧ x.u = u ∧
      solve t q' u = ((V.body q').staticStep (fun p H => A p (V.value q' p) H) old o b 0 x dt).u)
    (t0 : ℝ) (dt : ℕ → ℝ) (u0 : Ode.Vec V.L.B.N) (N : ℕ) : Run V s φ A B old old' 0 conds solve linear t0 dt u0 N q := by
  have htr : ∀ k, 1 ≤ k → ∀ᶠ q' in 𝓝 q, C78.Equilibrium (V.body q') b.allDofs (g (time t0 dt k)) (time t0 dt k)
      (traj (V.analysis A B old old' 0 conds solve linear) t0 dt u0 q' k) := by
    intro k h1
    obtain ⟨j, rfl⟩ : ∃ j, k = j + 1 := ⟨k - 1, by omega⟩
    filter_upwards [hG, hT] with q' hq1 hq2
    obtain ⟨x, δ, hx, -, he⟩ := hsolve (time t0 dt (j + 1)) q' (traj (V.analysis A B old old' 0 conds solve linear) t0 dt u0 q' j)
    have := (C78.C78_step (old := old) hq1.1 hq1.2 (fun u => (hq2 u).body hP) hlin hnorm hw hg hnd x δ).1
    rw [hx] at this
    have he2 : traj (V.analysis A B old old' 0 conds solve linear) t0 dt u0 q' (j + 1) = ((V.body q').staticStep (fun p H => A p (V.value q' p) H) old o b 0 x δ).u := he
    exact (congrArg (C78.Equilibrium (V.body q') b.allDofs (g (time t0 dt (j + 1))) (time t0 dt (j + 1))) he2).mpr this
  have hreg : ∀ k, ∀ w, Elim.mulVec (Elim.elim (V.stiffMatrix A old (time t0 dt k) (traj (V.analysis A B old old' 0 conds solve linear) t0 dt u0 q k) q) conds.flatten) w = 0 → w = 0 := by
    intro k w hw'
    rw [hc] at hw'
    exact C78.elim_injective hG.self_of_nhds.1 hG.self_of_nhds.2 ((hT.self_of_nhds _).body hP) old (time t0 dt k) hw'
  have hsol : ∀ k, 1 ≤ k → ∀ᶠ q' in 𝓝 q, Equilibrium V conds.flatten (traj (V.analysis A B old old' 0 conds solve linear) t0 dt u0 q k) 0 (time t0 dt k) q'
      (traj (V.analysis A B old old' 0 conds solve linear) t0 dt u0 q' k) := by
    intro k h1
    have h0 := (htr k h1).self_of_nhds.1
    filter_upwards [htr k h1] with q' hq'
    rw [hc]
    exact ⟨fun i hi => (hq'.1 i hi).trans (h0 i hi).symm, hq'.2⟩
  refine ⟨fun k _ _ => hT.self_of_nhds _, fun k _ _ => hS _, fun k _ _ => hreg k, fun k h1 _ => ?_, fun k h1 _ => hsol k h1⟩
  obtain ⟨U, D, -, hD, hU, -, -⟩ := C85_branch h hP (hT.self_of_nhds _) (hS _) old old' (hsol k h1).self_of_nhds (hreg k)
  refine hD.continuousAt.congr_of_eventuallyEq ?_
  have h0 := (htr k h1).self_of_nhds.1
  filter_upwards [hG, htr k h1, hU] with q' hq1 hq2 hq3
  obtain ⟨y, -, hy⟩ := C78.C78_unique hq1.1 hq1.2 (g (time t0 dt k)) (time t0 dt k)
  rw [hc] at hq3
  exact (hy _ hq2).trans (hy _ ⟨fun i hi => (hq3.1 i hi).trans (h0 i hi), hq3.2⟩).symm

end Form

/-! ## Materials -/

section Materials
open Serac.C84 (EC)
variable {n : ℕ}

/-- A material that is defined near a gradient and a parameter and continuously differentiable there. -/
def Joint (σ : ℝ → M n → Option (M n)) (z : (Fin n → Fin n → ℝ) × ℝ) : Prop :=
  (∀ᶠ y : (Fin n → Fin n → ℝ) × ℝ in 𝓝 z, (σ y.2 (Matrix.of y.1)).isSome) ∧ EC (fun y : (Fin n → Fin n → ℝ) × ℝ => (σ y.2 (Matrix.of y.1)).getD 0) z

theorem joint_of {σ : ℝ → M n → Option (M n)} {z : (Fin n → Fin n → ℝ) × ℝ} (F : (Fin n → Fin n → ℝ) × ℝ → M n)
    (h : ∀ᶠ y : (Fin n → Fin n → ℝ) × ℝ in 𝓝 z, σ y.2 (Matrix.of y.1) = some (F y)) (hF : EC F z) : Joint σ z := by
  refine ⟨?_, fun i j => (hF i j).congr_of_eventuallyEq ?_⟩
  · filter_upwards [h] with G hG
    rw [hG]
    rfl
  · filter_upwards [h] with G hG
    rw [hG]
    rfl

theorem entries2 (z : (Fin n → Fin n → ℝ) × ℝ) : EC (fun y : (Fin n → Fin n → ℝ) × ℝ => (Matrix.of y.1 : M n)) z := fun i j =>
  ContDiffAt.comp z (f := Prod.fst) (C84.entries z.1 i j) contDiffAt_fst

theorem deform2 (z : (Fin n → Fin n → ℝ) × ℝ) : EC (fun y : (Fin n → Fin n → ℝ) × ℝ => 1 + (Matrix.of y.1 : M n)) z := (EC.const 1 z).add (entries2 z)

/-- **C85, the flux** is continuously differentiable in gradient and parameter where the material is. -/
theorem C85_flux {d : Dim} (on : Bool) {σ : ℝ → M d.n → Option (M d.n)} {z : (Fin d.n → Fin d.n → ℝ) × ℝ} (hσ : Joint σ z) (h : on = true → (1 + Matrix.of z.1).det ≠ 0) :
    Joint (fun θ => materialFlux (ops d) on (σ θ)) z := by
  cases on with
  | false =>
    refine joint_of (fun y => (σ y.2 (Matrix.of y.1)).getD 0) ?_ hσ.2
    filter_upwards [hσ.1] with G hG
    obtain ⟨τ, hτ⟩ := Option.isSome_iff_exists.1 hG
    unfold materialFlux
    rw [hτ, Option.bind_some, C33.flux_eq (C71.ops_exact d)]
    rfl
  | true =>
    refine joint_of (fun y => (1 + Matrix.of y.1).det • ((σ y.2 (Matrix.of y.1)).getD 0 * ((1 + Matrix.of y.1)⁻¹)ᵀ)) ?_
      (EC.smul (deform2 z).det (EC.mul hσ.2 ((deform2 z).inv (h rfl)).transpose))
    filter_upwards [hσ.1, continuousAt_fst.eventually (C77.near_det (h rfl))] with G hG hd
    obtain ⟨τ, hτ⟩ := Option.isSome_iff_exists.1 hG
    unfold materialFlux
    rw [hτ, Option.bind_some, C33.flux_eq (C71.ops_exact d), if_pos rfl, if_neg hd, Option.getD_some]

/-- **C85, the materials**: both parameterized materials, with a parameter that changes bulk and shear modulus at rates `α` and `β` (one and zero in the code). -/
theorem C85_materials (K0 G0 α β : ℝ) (z2 : (Fin 2 → Fin 2 → ℝ) × ℝ) (z3 : (Fin 3 → Fin 3 → ℝ) × ℝ) :
    Joint (fun θ H => some (Mat.parameterizedLinearIsotropic K0 G0 (α * θ) (β * θ) H)) z2 ∧ Joint (fun θ H => some (Mat.parameterizedLinearIsotropic K0 G0 (α * θ) (β * θ) H)) z3 ∧
    (0 < (1 + Matrix.of z2.1).det → Joint (fun θ => Mat.pnh2 K0 G0 (α * θ) (β * θ)) z2) ∧ (0 < (1 + Matrix.of z3.1).det → Joint (fun θ => Mat.pnh3 K0 G0 (α * θ) (β * θ)) z3) := by
  have hK : ∀ {n : ℕ} (z : (Fin n → Fin n → ℝ) × ℝ), ContDiffAt ℝ 1 (fun y : (Fin n → Fin n → ℝ) × ℝ => K0 + α * y.2 - 2 / n * (G0 + β * y.2)) z := fun z =>
    (contDiffAt_const.add (contDiffAt_const.mul contDiffAt_snd)).sub (contDiffAt_const.mul (contDiffAt_const.add (contDiffAt_const.mul contDiffAt_snd)))
  have hG : ∀ {n : ℕ} (z : (Fin n → Fin n → ℝ) × ℝ), ContDiffAt ℝ 1 (fun y : (Fin n → Fin n → ℝ) × ℝ => G0 + β * y.2) z := fun z =>
    contDiffAt_const.add (contDiffAt_const.mul contDiffAt_snd)
  have lin : ∀ {n : ℕ} (z : (Fin n → Fin n → ℝ) × ℝ), Joint (fun θ H => some (Mat.parameterizedLinearIsotropic K0 G0 (α * θ) (β * θ) H)) z := by
    intro n z
    refine joint_of (fun y => C31.linear (K0 + α * y.2 - 2 / n * (G0 + β * y.2)) (G0 + β * y.2) (Matrix.of y.1)) (Filter.Eventually.of_forall fun y => by rw [C31.plinear_eq]) ?_
    unfold C31.linear
    exact EC.add (EC.smul ((hK z).mul (entries2 z).trace) (EC.const 1 z)) (EC.smul (hG z) ((entries2 z).add (entries2 z).transpose))
  have nh : ∀ {n : ℕ} (det : Mat ℝ n n → ℝ) (_ : ∀ A, det A = (1 + A).det - 1) (z : (Fin n → Fin n → ℝ) × ℝ), 0 < (1 + Matrix.of z.1).det →
      Joint (fun θ => Mat.parameterizedNeoHookean det K0 G0 (α * θ) (β * θ)) z := by
    intro n det hdet z h
    refine joint_of (fun y => ((1 + Matrix.of y.1).det)⁻¹ • (((K0 + α * y.2 - 2 / n * (G0 + β * y.2)) * Real.log (1 + Matrix.of y.1).det) • (1 : M n) +
      (G0 + β * y.2) • ((1 + Matrix.of y.1) * (1 + Matrix.of y.1)ᵀ - 1))) ?_ ?_
    · filter_upwards [continuousAt_fst.eventually (C77.near_pos h)] with G' hG'
      rw [C31.pnh_eq det hdet, if_neg (not_le.2 hG')]
    · exact EC.smul ((deform2 z).det.inv h.ne') (EC.add (EC.smul ((hK z).mul ((deform2 z).det.log h.ne')) (EC.const 1 z))
        (EC.smul (hG z) ((EC.mul (deform2 z) (deform2 z).transpose).sub (EC.const 1 z))))
  exact ⟨lin z2, lin z3, nh _ C31.det2' z2, nh _ C31.det3' z3⟩

variable {d : Dim} {V : Variant d} {s sF : Shapes} {φ : ℕ → ℕ → ℝ} {dφ : ℕ → ℕ → ℕ → ℝ}

/-- The partial derivatives of the flux with respect to the gradient and with respect to the parameter. -/
def moduli (V : Variant d) : Moduli2 d := fun p θ H i m j l =>
  fderiv ℝ (fun y => (flux V p y).getD 0 i m) ((H, θ) : (Fin d.n → Fin d.n → ℝ) × ℝ) (Pi.single j (Pi.single l 1), 0)
def slopes (V : Variant d) : Slopes d := fun p θ H i m => fderiv ℝ (fun y => (flux V p y).getD 0 i m) ((H, θ) : (Fin d.n → Fin d.n → ℝ) × ℝ) (0, 1)

/-- **C85, derivatives.**  Where the flux is continuously differentiable its partial derivatives meet the hypotheses. -/
theorem C85_partials {u : Ode.Vec V.L.B.N} {q : Ode.Vec V.nn}
    (h : ∀ ee ∈ V.L.B.S.elements.zipIdx, ∀ Q < V.L.B.S.E.npts, Joint (fun θ => materialFlux (ops d) V.L.B.S.on (V.law (ee.2 * V.L.B.S.E.npts + Q) θ)) (at' V s φ u q ee.1 Q)) :
    Tangent V s φ (moduli V) (slopes V) u q ∧ Smooth V s φ u q := by
  refine ⟨fun ee hee Q hQ => ⟨(h ee hee Q hQ).1, fun i m => ⟨_, fun y => ?_, (((h ee hee Q hQ).2 i m).differentiableAt one_ne_zero).hasFDerivAt⟩⟩, fun ee hee Q hQ => (h ee hee Q hQ).2⟩
  have e : y = ∑ j, ∑ l, y.1 j l • ((Pi.single j (Pi.single l 1) : Fin d.n → Fin d.n → ℝ), (0 : ℝ)) + y.2 • ((0 : Fin d.n → Fin d.n → ℝ), (1 : ℝ)) := by
    refine Prod.ext ?_ ?_
    · conv_lhs => rw [C77.basis_sum y.1]
      simp [Prod.fst_sum]
    · simp [Prod.snd_sum]
  conv_lhs => rw [e]
  rw [map_add, map_smul, smul_eq_mul, mul_comm y.2]
  refine congrArg₂ (· + ·) ?_ rfl
  simp only [map_sum, map_smul, smul_eq_mul]
  exact sum_congr rfl fun j _ => sum_congr rfl fun l _ => mul_comm _ _

/-- The tensor of elastic constants of the linear isotropic material with parameters. -/
def isotropicAt (V : Variant d) (K0 G0 α β : ℕ → ℝ) (q : Ode.Vec V.nn) (p : ℕ) : M d.n →ₗ[ℝ] M d.n :=
  C73.isotropic d.n (K0 p + α p * V.value q p + (2 / 3 - 2 / d.n) * (G0 p + β p * V.value q p)) (G0 p + β p * V.value q p)

theorem isotropic_smooth (hon : V.L.B.S.on = false) {K0 G0 α β : ℕ → ℝ}
    (hlaw : ∀ p θ H, V.law p θ H = some (Mat.parameterizedLinearIsotropic (K0 p) (G0 p) (α p * θ) (β p * θ) H)) (u : Ode.Vec V.L.B.N) (q : Ode.Vec V.nn) :
    Tangent V s φ (moduli V) (slopes V) u q ∧ Smooth V s φ u q := by
  refine C85_partials fun ee _ Q _ => ?_
  rw [hon]
  refine C85_flux false ?_ fun h => Bool.noConfusion h
  have e : V.law (ee.2 * V.L.B.S.E.npts + Q) = fun θ H => some (Mat.parameterizedLinearIsotropic (K0 (ee.2 * V.L.B.S.E.npts + Q)) (G0 (ee.2 * V.L.B.S.E.npts + Q))
    (α (ee.2 * V.L.B.S.E.npts + Q) * θ) (β (ee.2 * V.L.B.S.E.npts + Q) * θ) H) := funext fun θ => funext fun H => hlaw _ θ H
  rw [e]
  cases d with
  | two => exact (C85_materials _ _ _ _ _ 0).1
  | three => exact (C85_materials _ _ _ _ 0 _).2.1

theorem isotropic_good (h : C84.Sound V.L s sF) (hP : Field V φ dφ) (hon : V.L.B.S.on = false) {K0 G0 α β : ℕ → ℝ}
    (hlaw : ∀ p θ H, V.law p θ H = some (Mat.parameterizedLinearIsotropic (K0 p) (G0 p) (α p * θ) (β p * θ) H)) {q : Ode.Vec V.nn}
    (hpos : ∀ ee ∈ V.L.B.S.elements.zipIdx, ∀ Q < V.L.B.S.E.npts, let p := ee.2 * V.L.B.S.E.npts + Q
      0 < K0 p + α p * theta V φ q ee.1 Q ∧ 0 < G0 p + β p * theta V φ q ee.1 Q) :
    ∀ᶠ q' in 𝓝 q, C78.Good (V.body q') s sF (isotropicAt V K0 G0 α β q') ∧ ∀ ee ∈ V.L.B.S.elements.zipIdx, ∀ Q < V.L.B.S.E.npts, ∀ H : M d.n,
      let σ := isotropicAt V K0 G0 α β q' (ee.2 * V.L.B.S.E.npts + Q) H
      0 ≤ ∑ i, ∑ j, σ i j * H i j ∧ (∑ i, ∑ j, σ i j * H i j = 0 → ∀ i j, H i j + H j i = 0) := by
  let K : Ode.Vec V.nn → ℕ → ℝ := fun q' p => K0 p + α p * V.value q' p
  let G : Ode.Vec V.nn → ℕ → ℝ := fun q' p => G0 p + β p * V.value q' p
  have hpos' : ∀ᶠ q' in 𝓝 q, ∀ ee ∈ V.L.B.S.elements.zipIdx, ∀ Q ∈ List.range V.L.B.S.E.npts, 0 < K q' (ee.2 * V.L.B.S.E.npts + Q) ∧ 0 < G q' (ee.2 * V.L.B.S.E.npts + Q) := by
    refine C77.eventually_list _ _ _ fun ee hee => C77.eventually_list _ _ _ fun Q hQ => ?_
    have hQ' := List.mem_range.1 hQ
    have hth : ContinuousAt (fun q' => theta V φ q' ee.1 Q) q := (thetaMap V φ ee.1 Q).continuous.continuousAt
    have e1 : ∀ q', V.value q' (ee.2 * V.L.B.S.E.npts + Q) = theta V φ q' ee.1 Q := fun q' => value_eq hP q' hee hQ'
    simp only [K, G, e1]
    exact ((continuousAt_const.add (continuousAt_const.mul hth)).eventually (lt_mem_nhds (hpos ee hee Q hQ').1)).and
      ((continuousAt_const.add (continuousAt_const.mul hth)).eventually (lt_mem_nhds (hpos ee hee Q hQ').2))
  filter_upwards [hpos'] with q' hq'
  have hs := sound h q'
  refine ⟨⟨hs.meaning, hs.nondegenerate, hs.domains, hs.faces, hs.loads, fun l _ ho => ?_, ?_⟩, fun ee hee Q hQ => ?_⟩
  · rw [show (V.body q').B.S.on = false from hon] at ho
    exact Bool.noConfusion ho
  · refine ⟨fun p H => ?_, fun p H H' => ?_⟩
    · rw [show (V.body q').B.S.on = false from hon]
      have e : (V.body q').B.S.material p = fun H => some (Mat.linearIsotropic (K q' p + (2 / 3 - 2 / d.n) * G q' p) (G q' p) H) := by
        funext H
        refine (hlaw p (V.value q' p) H).trans (congrArg some ?_)
        refine (C31.plinear_eq _ _ _ _ H).trans (Eq.trans ?_ (C31.linearIsotropic_eq _ _ H).symm)
        simp only [K, G]
        congr 1
        ring
      rw [e]
      exact C33.C33_flux_off (C71.ops_exact d) _ _
    · unfold isotropicAt
      rw [C73.isotropic_dot, C73.isotropic_dot]
      have : ∑ i, ∑ j, (H i j + H j i) * H' i j = ∑ i, ∑ j, (H' i j + H' j i) * H i j := by
        simp only [add_mul, sum_add_distrib]
        congr 1
        · exact sum_congr rfl fun i _ => sum_congr rfl fun j _ => mul_comm _ _
        · rw [sum_comm]
          exact sum_congr rfl fun i _ => sum_congr rfl fun j _ => mul_comm _ _
      rw [this]
      ring
  · obtain ⟨h1, h2⟩ := hq' ee hee Q (List.mem_range.2 hQ)
    refine C78.isotropic_pos' ?_ h2
    have : K q' (ee.2 * V.L.B.S.E.npts + Q) + (2 / 3 - 2 / (d.n : ℝ)) * G q' (ee.2 * V.L.B.S.E.npts + Q) + (2 / (d.n : ℝ) - 2 / 3) * G q' (ee.2 * V.L.B.S.E.npts + Q) =
      K q' (ee.2 * V.L.B.S.E.npts + Q) := by ring
    exact this.symm ▸ h1

/-- **C85, the linear isotropic material with parameters**: if all nodes are held and both moduli are positive at the quadrature points, analyses with the code's solver are such
runs, so their adjoint passes return gradients. -/
theorem C85_isotropic (h : C84.Sound V.L s sF) (hP : Field V φ dφ) (hon : V.L.B.S.on = false) {K0 G0 α β : ℕ → ℝ}
    (hlaw : ∀ p θ H, V.law p θ H = some (Mat.parameterizedLinearIsotropic (K0 p) (G0 p) (α p * θ) (β p * θ) H)) {q : Ode.Vec V.nn}
    (hpos : ∀ ee ∈ V.L.B.S.elements.zipIdx, ∀ Q < V.L.B.S.E.npts, let p := ee.2 * V.L.B.S.E.npts + Q
      0 < K0 p + α p * theta V φ q ee.1 Q ∧ 0 < G0 p + β p * theta V φ q ee.1 Q)
    {b : Ode.BCs V.L.B.N} {g : ℝ → Ode.Vec V.L.B.N} (hp : C78.Proper V.L.B s) (hh : ∀ n, C78.Held V.L.B b.allDofs n) (hg : Ode.Prescribes b g) (hnd : b.allDofs.Nodup)
    {conds : List (List (Fin V.L.B.N))} (hc : conds.flatten = b.allDofs) {o : StaticSolver V.L.B.N} (hlin : C78.Exact o.linear) (hnorm : C78.Length o.norm) (hw : o.warm = true)
    (old old' : Buffer ℝ) {solve : ℝ → Ode.Vec V.nn → Ode.Vec V.L.B.N → Ode.Vec V.L.B.N} (linear : Elim.Mat V.L.B.N → Ode.Vec V.L.B.N → Ode.Vec V.L.B.N)
    (hsolve : ∀ t q' u, ∃ (x : StaticState V.L.B.N) (dt : ℝ), x.time + dt = t ∧ x.u = u ∧
      solve t q' u = ((V.body q').staticStep (fun p H => moduli V p (V.value q' p) H) old o b 0 x dt).u)
    (t0 : ℝ) (dt : ℕ → ℝ) (u0 : Ode.Vec V.L.B.N) (N : ℕ) : Run V s φ (moduli V) (slopes V) old old' 0 conds solve linear t0 dt u0 N q := by
  refine C85_linear (C := isotropicAt V K0 G0 α β) h hP ?_ (Filter.Eventually.of_forall fun q' u => (isotropic_smooth hon hlaw u q').1)
    (fun u => (isotropic_smooth hon hlaw u q).2) hg hnd hc hlin hnorm hw old old' linear hsolve t0 dt u0 N
  filter_upwards [isotropic_good h hP hon hlaw hpos] with q' hq'
  refine ⟨hq'.1, C78.C78_supported_varying (L := V.body q') ⟨hp.nodes, hp.slope, hp.volume⟩ (fun n => ?_) hq'.2⟩
  have key : ∀ n : Fin V.L.B.S.nn, C78.Held V.L.B b.allDofs n → C78.Held (V.body q').B b.allDofs n := by
    intro n hn
    induction hn with
    | fixed n h => exact .fixed (B := (V.body q').B) n h
    | element e a he ha h ih => exact .element (B := (V.body q').B) e a he ha ih
  exact key n (hh n)

end Materials

/-! ## Example: the square of C73, clamped, under gravity, traction and pressure; the parameter is a field of linear elements that changes the bulk modulus -/

section Example

def exVariant : Variant .two where
  L := C75.exLoaded [C73.exGravity] [C75.exTraction, C75.exPressure]
  E := simplex C72.tri3
  nn := 5
  conn := C71.exConn
  law := fun _ θ H => some (Mat.parameterizedLinearIsotropic 2 1 (1 * θ) (0 * θ) H)

theorem ex_field : Field exVariant C72.exShapes.phi C72.exShapes.dphi := ⟨(C73.ex_meaning []).trial, rfl⟩

theorem ex_sound : C84.Sound exVariant.L C72.exShapes C75.exSF :=
  ⟨C73.ex_meaning _, C73.ex_nondegenerate _, C73.ex_domains _ (by simp), C75.ex_faces, C75.ex_loads_good _ _ (by simp)⟩

theorem ex_theta {q : Ode.Vec 5} (hq : ∀ i, |q i| ≤ 1) (e : ℕ) {Q : ℕ} (hQ : Q < 3) : -1 ≤ theta exVariant C72.exShapes.phi q e Q := by
  have e1 : theta exVariant C72.exShapes.phi q e Q = ∑ a ∈ range 3, q (C71.exConn e a) * C72.tri3.phi (C72.tri3.xi Q) a := rfl
  have h := fun a => (abs_le.1 (hq (C71.exConn e a))).1
  rw [e1]
  simp only [sum_range_succ, sum_range_zero, C72.tri3]
  have h0 := h 0
  have h1 := h 1
  have h2 := h 2
  interval_cases Q <;> norm_num <;> linarith

def exSolve (old : Buffer ℝ) (o : Newton.Options) : ℝ → Ode.Vec exVariant.nn → Ode.Vec exVariant.L.B.N → Ode.Vec exVariant.L.B.N := fun t q' u =>
  ((exVariant.body q').staticStep (fun p H => moduli exVariant p (exVariant.value q' p) H) old (C78.exSolver true o) C73.exClamp 0 ⟨0, u, 0, ⟨.fin 0, false, 0, .fin 0⟩⟩ t).u

/-- The code's analysis at any parameters between -1 and 1, which need not be uniform: bulk moduli between 1 and 3. -/
theorem ex_run (old old' : Buffer ℝ) (o : Newton.Options) {q : Ode.Vec 5} (hq : ∀ i, |q i| ≤ 1) (N : ℕ) :
    Run exVariant C72.exShapes C72.exShapes.phi (moduli exVariant) (slopes exVariant) old old' 0 [C73.exClamp.allDofs] (exSolve old o) (C78.exSolver true o).linear 0 (fun _ => 1) 0 N q :=
  C85_isotropic (V := exVariant) (K0 := fun _ => 2) (G0 := fun _ => 1) (α := fun _ => 1) (β := fun _ => 0) (b := C73.exClamp) (g := fun _ _ => 0) ex_sound ex_field rfl (fun _ _ _ => rfl)
    (fun ee _ Q hQ => ⟨by have := ex_theta hq ee.1 (Q := Q) hQ; linarith, by norm_num⟩) (C78.ex_proper _) (C78.ex_held _) C73.ex_clamp (by decide) (by rfl) (C78.ex_exact true o)
    (C78.ex_length true o) rfl old old' _ (fun t q' u => ⟨⟨0, u, 0, ⟨.fin 0, false, 0, .fin 0⟩⟩, t, zero_add t, rfl, rfl⟩) 0 _ 0 N

/-- Two steps from rest; the objective is the product of the displacements of both steps. -/
example (old old' : Buffer ℝ) (o : Newton.Options) (q : Ode.Vec 5) (hq : ∀ i, |q i| ≤ 1) :
    let pr := exVariant.analysis (moduli exVariant) (slopes exVariant) old old' 0 [C73.exClamp.allDofs] (exSolve old o) (C78.exSolver true o).linear
    let dt : ℕ → ℝ := fun _ => 1
    ∃ r, StaticAdj.pass pr q (C59.loads (fun j => if j = 0 then C59.traj pr 0 dt 0 q 2 else C59.traj pr 0 dt 0 q 1) 2) (StaticAdj.forward pr q (C59.steps dt 2) (StaticAdj.start 0 0)) = some r ∧
      ∃ G : Ode.Vec 5 →L[ℝ] ℝ, HasFDerivAt (fun q' => C59.traj pr 0 dt 0 q' 1 ⬝ᵥ C59.traj pr 0 dt 0 q' 2) G q ∧ ∀ w, G w = r.1.sum ⬝ᵥ w := by
  intro pr dt
  refine C85_gradient (ex_run old old' o hq 2) ex_sound ex_field (C78.ex_exact true o) (fun z => z 0 ⬝ᵥ z 1) _ ?_
  have hd : ∀ z : Fin 2 → Ode.Vec exVariant.L.B.N, Diff (fun z : Fin 2 → Ode.Vec exVariant.L.B.N => z 0 ⬝ᵥ z 1) (fun v => z 1 ⬝ᵥ v 0 + z 0 ⬝ᵥ v 1) z := by
    intro z
    have hp : ∀ (j : Fin 2) (i : Fin exVariant.L.B.N), Diff (fun z : Fin 2 → Ode.Vec exVariant.L.B.N => z j i) (fun v => v j i) z := fun j i =>
      ⟨(ContinuousLinearMap.proj (R := ℝ) (φ := fun _ : Fin exVariant.L.B.N => ℝ) i).comp (ContinuousLinearMap.proj (R := ℝ) (φ := fun _ : Fin 2 => Ode.Vec exVariant.L.B.N) j),
        fun _ => rfl, ((ContinuousLinearMap.proj (R := ℝ) (φ := fun _ : Fin exVariant.L.B.N => ℝ) i).comp
          (ContinuousLinearMap.proj (R := ℝ) (φ := fun _ : Fin 2 => Ode.Vec exVariant.L.B.N) j)).hasFDerivAt⟩
    refine (Diff.sum univ fun i _ => (hp 0 i).mul (hp 1 i)).congr (fun _ => rfl) fun v => ?_
    simp only [dotProduct, ← sum_add_distrib]
    exact sum_congr rfl fun i _ => by ring
  obtain ⟨L, h1, h2⟩ := hd fun k => C59.traj pr 0 dt 0 q (k + 1)
  refine ⟨L, h2, fun v => (h1 v).trans ?_⟩
  rw [Fin.sum_univ_two]
  rfl

/-- The reaction at the first node in the vertical direction. -/
example (old old' : Buffer ℝ) (o : Newton.Options) (q : Ode.Vec exVariant.nn) (hq : ∀ i : Fin 5, |q i| ≤ 1) (v : Ode.Vec exVariant.L.B.N) (_hv : v = (Pi.single (1 : Fin 10) 1 : Ode.Vec 10)) :
    let pr := exVariant.analysis (moduli exVariant) (slopes exVariant) old old' 0 [C73.exClamp.allDofs] (exSolve old o) (C78.exSolver true o).linear
    ∃ x y, C59.reactionSensitivity pr q v (StaticAdj.forward pr q (C59.steps (fun _ => 1) 3) (StaticAdj.start 0 0)) = some (x, y) ∧
      ∀ w, HasDerivAt (fun e : ℝ => v ⬝ᵥ (StaticAdj.forward pr (q + e • w) (C59.steps (fun _ => 1) 3) (StaticAdj.start 0 0)).reactions) ((x + y) ⬝ᵥ w) 0 :=
  C85_reactions (ex_run old old' o hq 3) ex_sound ex_field (C78.ex_exact true o) (by decide) v

end Example
end Serac.C85
