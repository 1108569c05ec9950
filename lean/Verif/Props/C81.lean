import Verif.Model.HeatTangent
import Verif.Props.C77
import Verif.Props.C78
/-!
# C81: the assembled Jacobian of heat transfer is the derivative of its residual, and Newton's method solves its steps

The matrices are those of the forms one differentiates by hand (`C81_form`, `C81_store_form`, `C81_matrix`).  If the derivatives of the user's functions are the true ones,
the matrix of the temperature is the derivative of the residual (`C81_derivative`), and what the nonlinear solver gets is that of the residual with boundary conditions
(`C81_transient`, `C81_static`).  The shipped conductors have the derivatives of `C81_conductors`; `C81_symmetric` says when the matrices are symmetric.  For linear problems the
residual is affine (`C81_linear`), the matrix of a step positive definite (`C81_definite`), and the Newton solver finds the rate of every step (`C81_solves`): the assumption on
the solver in C72 and C75.  Steady temperatures are unique (`C81_steady_unique`, `C81_anchored`) and found by quasi-static steps (`C81_steady_step`, `C81_steady_run`).
-/

noncomputable section
namespace Serac.C81
open Serac.Tensor Serac.Transform Serac.Kernels Serac.Solid Serac.Loads Serac.Heat Serac.Deriv Finset
open Serac.C71 (M Shapes)
open Serac.C77 (action_tested assemble_mul store_at foldl_sum eventually_list elim_free idx_lt)
open scoped Matrix

/-! ## Kernels that add to a vector -/

section Generic

theorem action_split {E : Elem ℝ} {phi dphi wt} (h : C51.Test E phi dphi wt) {c : ℕ} (hc : 0 < c) (hd : 0 < E.dim) (z : Shape) (D : Buffer ℝ) {nn ne : ℕ}
    (conn : ℕ → ℕ → Fin nn) (l : List ℕ) (U r : ℕ → ℝ) (n : Fin nn) (i : Fin c) :
    scatterE E.ndof ne conn (actionKernel E E c c z D l U r) n i = scatterE E.ndof ne conn r n i + scatterE E.ndof ne conn (actionKernel E E c c z D l U fun _ => 0) n i := by
  unfold scatterE
  rw [← sum_add_distrib]
  refine sum_congr rfl fun e _ => ?_
  rw [← sum_add_distrib]
  refine sum_congr rfl fun a ha => ?_
  split_ifs
  · rw [C51.action_at h c c hc hd z D l U r e _ (idx_lt i (mem_range.1 ha)) (Or.inl rfl), C51.action_at h c c hc hd z D l U _ e _ (idx_lt i (mem_range.1 ha)) (Or.inl rfl), zero_add]
  · simp

theorem gradient_split {E : Elem ℝ} {phi dphi wt} (h : C51.Test E phi dphi wt) (h' : C51.Trial E phi dphi) {c : ℕ} (hc : 0 < c) (hd : 0 < E.dim) (z : Shape) (D : Buffer ℝ)
    {nn ne : ℕ} (conn : ℕ → ℕ → Fin nn) (l : List ℕ) (K : ℕ → ℝ) (r q : Fin nn × Fin c) :
    assembleE E.ndof ne conn (gradientKernel E E c c z D l K) r q = assembleE E.ndof ne conn K r q + assembleE E.ndof ne conn (gradientKernel E E c c z D l fun _ => 0) r q := by
  unfold assembleE
  rw [← sum_add_distrib]
  refine sum_congr rfl fun e _ => ?_
  rw [← sum_add_distrib]
  refine sum_congr rfl fun a ha => ?_
  rw [← sum_add_distrib]
  refine sum_congr rfl fun b hb => ?_
  split_ifs
  · rw [C51.gradient_at h h' c c hc hd z D l K e _ _ _ (idx_lt r.2 (mem_range.1 ha)) q.2.2 (mem_range.1 hb),
      C51.gradient_at h h' c c hc hd z D l _ e _ _ _ (idx_lt r.2 (mem_range.1 ha)) q.2.2 (mem_range.1 hb), zero_add]
  · simp

theorem contract_value {n : ℕ} (q : Fin n → ℝ) (Ji JTi : Fin n → Fin n → ℝ) (V : Fin n → ℝ) (hT : ∀ m l, JTi m l = Ji l m) (c x : ℝ) :
    ∑ l, (∑ m, q m * JTi m l) * c * x * V l = c * ∑ m, q m * x * ∑ l, V l * Ji l m := by
  simp only [hT, sum_mul, mul_sum]
  rw [sum_comm]
  exact sum_congr rfl fun m _ => sum_congr rfl fun l _ => by ring

theorem contract_grad {n : ℕ} (q : Fin n → Fin n → ℝ) (Ji JTi : Fin n → Fin n → ℝ) (W V : Fin n → ℝ) (hT : ∀ m l, JTi m l = Ji l m) (c : ℝ) :
    ∑ l, (∑ k, (∑ m, (∑ p, q m p * Ji k p) * JTi m l) * c * W k) * V l = c * ∑ m, (∑ p, q m p * ∑ k, W k * Ji k p) * ∑ l, V l * Ji l m := by
  have e1 : ∀ l, (∑ k, (∑ m, (∑ p, q m p * Ji k p) * JTi m l) * c * W k) * V l = ∑ m, (∑ p, q m p * ∑ k, W k * Ji k p) * (c * Ji l m * V l) := by
    intro l
    simp only [hT, sum_mul, mul_sum]
    rw [sum_comm]
    refine sum_congr rfl fun m _ => ?_
    rw [sum_comm]
    exact sum_congr rfl fun p _ => sum_congr rfl fun k _ => by ring
  rw [sum_congr rfl fun l _ => e1 l, sum_comm, mul_sum]
  refine sum_congr rfl fun m _ => ?_
  rw [← mul_sum]
  simp only [mul_sum]
  exact sum_congr rfl fun l _ => by ring

end Generic

/-! ## Spec: the forms -/

section Spec
variable {d : Dim} (X : Exchange d) (s sF : Shapes)

/-- Change of the heat flux against the gradient of `v`, for a change `w` of the temperature `u`. -/
def conduction (D : Slopes d) (u w v : X.S.Nodal) : ℝ := C72.integral X.S s X.S.elements fun ee Q =>
  let p := ee.2 * X.S.E.npts + Q
  let T := C72.value X.S s u ee.1 Q
  let G := C72.grad X.S s u ee.1 Q;
  -∑ m, (D.fluxT p T G m * C72.value X.S s w ee.1 Q + ∑ n, D.fluxG p T G m n * C72.grad X.S s w ee.1 Q n) * C72.grad X.S s v ee.1 Q m

/-- Change of what the sources supply. -/
def feedback (D : Slopes d) (t : ℝ) (u w v : X.S.Nodal) : ℝ := (X.S.sources.map fun src => C72.integral X.S s src.elements fun ee Q =>
  let p := ee.2 * X.S.E.npts + Q
  let T := C72.value X.S s u ee.1 Q
  let G := C72.grad X.S s u ee.1 Q
  (D.sourceT src t p T G * C72.value X.S s w ee.1 Q + ∑ n, D.sourceG src t p T G n * C72.grad X.S s w ee.1 Q n) * C72.value X.S s v ee.1 Q).sum

/-- Change of what leaves through the boundary. -/
def release (D : Slopes d) (t : ℝ) (u w v : X.S.Nodal) : ℝ := (X.fluxes.map fun l => C75.integral X.F sF l.elements fun ee Q =>
  let A := C75.area d (C75.tangents X.F sF X.S.pos ee.1 Q)
  C75.size A * D.exchange l (C75.place X.F sF X.S.pos ee.1 Q) ((C75.size A)⁻¹ • A) t (C75.along X.F sF u ee.1 Q) * C75.along X.F sF w ee.1 Q *
    C75.along X.F sF v ee.1 Q).sum

/-- Heat content of `w` weighted with `v`. -/
def storage (w v : X.S.Nodal) : ℝ := C72.integral X.S s X.S.elements fun ee Q => C72.capacity X.S ee Q * C72.value X.S s w ee.1 Q * C72.value X.S s v ee.1 Q

/-- What is assumed of a mesh with its boundary: elements mean their shape functions, none is degenerate. -/
structure Sound : Prop where
  meaning : C72.Meaning X.S s
  good : C72.AllGood X.S s
  faces : C75.Meaning X.F sF d
  fluxes : C75.AllGoodHeat X sF

end Spec

/-! ## The forms of the matrices -/

section Forms
variable {d : Dim} {X : Exchange d} {s sF : Shapes}

theorem flatV_eq {n : ℕ} (v : Vec ℝ n) (i : Fin n) : flatV v i = v i := by simp [flatV]
theorem flatM_eq {m n : ℕ} (v : Mat ℝ m n) (i : Fin m) (j : Fin n) : flatM v i j = v i j := by simp [flatM]

/-- What the kernels see at a point: temperature and gradient. -/
theorem seen (hm : C72.Meaning X.S s) (u : X.S.Nodal) (e Q : ℕ) (J : M d.n) (hJ : J = C72.jac X.S s e Q) :
    (interpolate X.S.E fun p => gatherE X.S.E.ndof X.S.conn (X.S.field u) (e * (1 * X.S.E.ndof) + p)).value Q 0 = C72.value X.S s u e Q ∧
    Tensor.dot (fun (i : Fin 1) (j : Fin d.n) => (interpolate X.S.E fun p => gatherE X.S.E.ndof X.S.conn (X.S.field u) (e * (1 * X.S.E.ndof) + p)).grad Q i j) J⁻¹ 0 =
      C72.grad X.S s u e Q := by
  have h := C72.interp_eq (d := d) hm.trial X.S.conn (X.S.field u) e Q
  refine ⟨congrFun (congrArg Prod.fst h) 0, ?_⟩
  have h2 : (fun (i : Fin 1) (j : Fin d.n) => (interpolate X.S.E fun p => gatherE X.S.E.ndof X.S.conn (X.S.field u) (e * (1 * X.S.E.ndof) + p)).grad Q i j) =
      C72.row (C72.parGrad X.S s u e Q) := congrArg Prod.snd h
  rw [h2, Tensor.dot_eq, hJ]
  funext j
  rw [Matrix.mul_apply]
  rfl

/-- The material's part. -/
theorem conduct_tested (h : Sound X s sF) (D : Slopes d) (old : Buffer ℝ) (u w v : X.S.Nodal) :
    ∑ n, scatterE X.S.E.ndof X.S.ne X.S.conn (actionKernel X.S.E X.S.E 1 1 conductShape (X.S.conductBuffer D old u) X.S.elements
      (gatherE X.S.E.ndof X.S.conn (X.S.field w)) fun _ => 0) n (0 : Fin 1) * v n = conduction X s D u w v := by
  have hd : 0 < d.n := by cases d <;> decide
  have hm := h.meaning
  have ht := action_tested hm.test hm.trial (c := 1) (by norm_num) hm.dim hd conductShape (X.S.conductBuffer D old u) X.S.conn (fun e he => (h.good.1 e he).1) (X.S.field w)
    (X.S.field v)
  simp only [Fin.sum_univ_one] at ht
  refine ht.trans ?_
  unfold conduction C72.integral
  congr 1
  refine List.map_congr_left fun ee hee => sum_congr rfl fun Q hQ => ?_
  congr 1
  have hJ := (h.good.1 ee.1 (C71.mem_zipIdx_fst hee)).2 Q (mem_range.1 hQ)
  have hJT : ((C72.jac X.S s ee.1 Q)ᵀ).det ≠ 0 := by rwa [Matrix.det_transpose]
  obtain ⟨q1, q2⟩ := C75.at_div (p := ee.2) (mem_range.1 hQ)
  obtain ⟨s1, s2⟩ := seen hm u ee.1 Q _ rfl
  set p := ee.2 * X.S.E.npts + Q with hp
  set T := C72.value X.S s u ee.1 Q
  set G := C72.grad X.S s u ee.1 Q
  have hD1 : ∀ l : Fin d.n, C51.e10 conductShape (X.S.conductBuffer D old u p) ((0 : Fin 1) : ℕ) l ((0 : Fin 1) : ℕ) =
      (∑ m, (-1 * D.fluxT p T G m) * (C72.jac X.S s ee.1 Q)ᵀ⁻¹ m l) * (C72.jac X.S s ee.1 Q).det := by
    intro l
    unfold Problem.conductBuffer
    rw [hp, store_at _ _ _ hee (mem_range.1 hQ)]
    simp only [C51.e10, conductShape, Bool.false_eq_true, if_false, Problem.conductGrad, flatV_eq]
    rw [q1, q2, C72.jacobian_eq hm hee, Tensor.transpose_eq, Transform.inv_eq d _ hJ, Transform.inv_eq d _ hJT, Transform.det_eq, Matrix.det_transpose]
    simp only [Option.getD_some]
    rw [s1, s2]
  have hD2 : ∀ l k : Fin d.n, C51.e11 conductShape (X.S.conductBuffer D old u p) ((0 : Fin 1) : ℕ) l ((0 : Fin 1) : ℕ) k =
      (∑ m, (∑ n, (-1 * D.fluxG p T G m n) * (C72.jac X.S s ee.1 Q)⁻¹ k n) * (C72.jac X.S s ee.1 Q)ᵀ⁻¹ m l) * (C72.jac X.S s ee.1 Q).det := by
    intro l k
    unfold Problem.conductBuffer
    rw [hp, store_at _ _ _ hee (mem_range.1 hQ)]
    simp only [C51.e11, conductShape, Bool.false_eq_true, if_false, Problem.conductGrad]
    rw [q1, q2, C72.jacobian_eq hm hee, Tensor.transpose_eq, Transform.inv_eq d _ hJ, Transform.inv_eq d _ hJT, Transform.det_eq, Matrix.det_transpose]
    simp only [Option.getD_some]
    rw [s1, s2]
    exact flatM_eq _ l k
  have hz0 : ∀ D i j, C51.e00 (R := ℝ) conductShape D i j = 0 := fun _ _ _ => rfl
  have hz1 : ∀ D i j k, C51.e01 (R := ℝ) conductShape D i j k = 0 := fun _ _ _ _ => rfl
  have hT : ∀ m l, (C72.jac X.S s ee.1 Q)ᵀ⁻¹ m l = (C72.jac X.S s ee.1 Q)⁻¹ l m := fun m l => by rw [← Matrix.transpose_nonsing_inv, Matrix.transpose_apply]
  simp only [hz0, hz1, hD1, hD2, zero_mul, sum_const_zero, zero_add, add_zero, add_mul, sum_add_distrib]
  have e1 := contract_value (fun m => -1 * D.fluxT p T G m) ((C72.jac X.S s ee.1 Q)⁻¹ : M d.n) ((C72.jac X.S s ee.1 Q)ᵀ⁻¹ : M d.n) (C72.parGrad X.S s v ee.1 Q) hT
    (C72.jac X.S s ee.1 Q).det (C72.value X.S s w ee.1 Q)
  have e2 := contract_grad (fun m n => -1 * D.fluxG p T G m n) ((C72.jac X.S s ee.1 Q)⁻¹ : M d.n) ((C72.jac X.S s ee.1 Q)ᵀ⁻¹ : M d.n) (C72.parGrad X.S s w ee.1 Q) (C72.parGrad X.S s v ee.1 Q) hT
    (C72.jac X.S s ee.1 Q).det
  refine (congrArg₂ (· + ·) e1 e2).trans ?_
  rw [← mul_add, ← sum_add_distrib, ← sum_add_distrib, ← sum_neg_distrib]
  congr 1
  refine sum_congr rfl fun m _ => ?_
  change _ * C72.grad X.S s v ee.1 Q m + (∑ n, _ * C72.grad X.S s w ee.1 Q n) * C72.grad X.S s v ee.1 Q m = _
  simp only [neg_mul, one_mul, sum_neg_distrib]
  ring

/-- A source's part. -/
theorem source_tested (h : Sound X s sF) (D : Slopes d) {src : Source d} (hs : src ∈ X.S.sources) (t : ℝ) (old : Buffer ℝ) (u w v : X.S.Nodal) :
    ∑ n, scatterE X.S.E.ndof X.S.ne X.S.conn (actionKernel X.S.E X.S.E 1 1 sourceShape (X.S.sourceBuffer D src t old u) src.elements
      (gatherE X.S.E.ndof X.S.conn (X.S.field w)) fun _ => 0) n (0 : Fin 1) * v n = -C72.integral X.S s src.elements fun ee Q =>
      (D.sourceT src t (ee.2 * X.S.E.npts + Q) (C72.value X.S s u ee.1 Q) (C72.grad X.S s u ee.1 Q) * C72.value X.S s w ee.1 Q +
        ∑ n, D.sourceG src t (ee.2 * X.S.E.npts + Q) (C72.value X.S s u ee.1 Q) (C72.grad X.S s u ee.1 Q) n * C72.grad X.S s w ee.1 Q n) * C72.value X.S s v ee.1 Q := by
  have hd : 0 < d.n := by cases d <;> decide
  have hm := h.meaning
  have hg := h.good.2 src hs
  have ht := action_tested hm.test hm.trial (c := 1) (by norm_num) hm.dim hd sourceShape (X.S.sourceBuffer D src t old u) X.S.conn (fun e he => (hg e he).1) (X.S.field w)
    (X.S.field v)
  simp only [Fin.sum_univ_one] at ht
  refine ht.trans ?_
  unfold C72.integral
  rw [List.sum_neg, List.map_map]
  congr 1
  refine List.map_congr_left fun ee hee => ?_
  rw [Function.comp_apply, ← sum_neg_distrib]
  refine sum_congr rfl fun Q hQ => ?_
  beta_reduce
  rw [← mul_neg]
  congr 1
  have hJ := (hg ee.1 (C71.mem_zipIdx_fst hee)).2 Q (mem_range.1 hQ)
  obtain ⟨q1, q2⟩ := C75.at_div (p := ee.2) (mem_range.1 hQ)
  obtain ⟨s1, s2⟩ := seen hm u ee.1 Q _ rfl
  set p := ee.2 * X.S.E.npts + Q with hp
  set T := C72.value X.S s u ee.1 Q
  set G := C72.grad X.S s u ee.1 Q
  have hD1 : C51.e00 sourceShape (X.S.sourceBuffer D src t old u p) ((0 : Fin 1) : ℕ) ((0 : Fin 1) : ℕ) = -1 * D.sourceT src t p T G * (C72.jac X.S s ee.1 Q).det := by
    unfold Problem.sourceBuffer
    rw [hp, store_at _ _ _ hee (mem_range.1 hQ)]
    simp only [C51.e00, sourceShape, Bool.false_eq_true, if_false, Problem.sourceGrad]
    rw [q1, q2, C72.jacobian_eq hm hee, Tensor.transpose_eq, Transform.inv_eq d _ hJ, Transform.det_eq, Matrix.det_transpose]
    simp only [Option.getD_some]
    rw [s1, s2]
  have hD2 : ∀ k : Fin d.n, C51.e01 sourceShape (X.S.sourceBuffer D src t old u p) ((0 : Fin 1) : ℕ) ((0 : Fin 1) : ℕ) k =
      (∑ n, (-1 * D.sourceG src t p T G n) * (C72.jac X.S s ee.1 Q)⁻¹ k n) * (C72.jac X.S s ee.1 Q).det := by
    intro k
    unfold Problem.sourceBuffer
    rw [hp, store_at _ _ _ hee (mem_range.1 hQ)]
    simp only [C51.e01, sourceShape, Bool.false_eq_true, if_false, Problem.sourceGrad, flatV_eq]
    rw [q1, q2, C72.jacobian_eq hm hee, Tensor.transpose_eq, Transform.inv_eq d _ hJ, Transform.det_eq, Matrix.det_transpose]
    simp only [Option.getD_some]
    rw [s1, s2]
  have hz2 : ∀ D i j k, C51.e10 (R := ℝ) sourceShape D i j k = 0 := fun _ _ _ _ => rfl
  have hz3 : ∀ D i j k m, C51.e11 (R := ℝ) sourceShape D i j k m = 0 := fun _ _ _ _ _ => rfl
  simp only [hz2, hz3, hD1, hD2, zero_mul, sum_const_zero, add_zero]
  have e : ∑ k, (∑ n, (-1 * D.sourceG src t p T G n) * (C72.jac X.S s ee.1 Q)⁻¹ k n) * (C72.jac X.S s ee.1 Q).det * C72.parGrad X.S s w ee.1 Q k =
      -((C72.jac X.S s ee.1 Q).det * ∑ n, D.sourceG src t p T G n * C72.grad X.S s w ee.1 Q n) := by
    unfold C72.grad
    simp only [sum_mul, mul_sum]
    rw [sum_comm, ← sum_neg_distrib]
    refine sum_congr rfl fun n _ => ?_
    rw [← sum_neg_distrib]
    exact sum_congr rfl fun k _ => by ring
  refine (congrArg (fun x => (_ + x) * _) e).trans ?_
  change (_ * C72.value X.S s w ee.1 Q + _) * C72.value X.S s v ee.1 Q = _
  ring

/-- A flux's part. -/
theorem exchange_tested (h : Sound X s sF) (D : Slopes d) {l : Flux d} (hl : l ∈ X.fluxes) (t : ℝ) (old : Buffer ℝ) (u w v : X.S.Nodal) :
    ∑ n, scatterE X.F.E.ndof X.F.ne X.F.conn (actionKernel X.F.E X.F.E 1 1 exchangeShape (X.exchangeBuffer D l t old u) l.elements
      (gatherE X.F.E.ndof X.F.conn (X.S.field w)) fun _ => 0) n (0 : Fin 1) * v n = C75.integral X.F sF l.elements fun ee Q =>
      C75.size (C75.area d (C75.tangents X.F sF X.S.pos ee.1 Q)) * D.exchange l (C75.place X.F sF X.S.pos ee.1 Q)
        ((C75.size (C75.area d (C75.tangents X.F sF X.S.pos ee.1 Q)))⁻¹ • C75.area d (C75.tangents X.F sF X.S.pos ee.1 Q)) t (C75.along X.F sF u ee.1 Q) *
        C75.along X.F sF w ee.1 Q * C75.along X.F sF v ee.1 Q := by
  have hd' : 0 < faceDim d := by cases d <;> decide
  have hF := h.faces
  have hg := h.fluxes l hl
  have ht := action_tested hF.test hF.trial (c := 1) (by norm_num) hF.dim hd' exchangeShape (X.exchangeBuffer D l t old u) X.F.conn (fun e he => (hg e he).1) (X.S.field w)
    (X.S.field v)
  simp only [Fin.sum_univ_one] at ht
  refine ht.trans ?_
  unfold C75.integral
  congr 1
  refine List.map_congr_left fun ee hee => sum_congr rfl fun Q hQ => ?_
  congr 1
  have hA := (hg ee.1 (C71.mem_zipIdx_fst hee)).2 Q (mem_range.1 hQ)
  obtain ⟨q1, q2⟩ := C75.at_div (p := ee.2) (mem_range.1 hQ)
  have h3 := C75.interp_eq (d := d) hF.trial X.F.conn (X.S.field u) ee.1 Q
  unfold Faces.interp at h3
  have h4 : (interpolate X.F.E fun p => gatherE X.F.E.ndof X.F.conn (X.S.field u) (ee.1 * (1 * X.F.E.ndof) + p)).value Q 0 = C75.along X.F sF u ee.1 Q :=
    congrFun (congrArg Prod.fst h3) 0
  have hD1 : C51.e00 exchangeShape (X.exchangeBuffer D l t old u (ee.2 * X.F.E.npts + Q)) ((0 : Fin 1) : ℕ) ((0 : Fin 1) : ℕ) =
      C75.size (C75.area d (C75.tangents X.F sF X.S.pos ee.1 Q)) * D.exchange l (C75.place X.F sF X.S.pos ee.1 Q)
        ((C75.size (C75.area d (C75.tangents X.F sF X.S.pos ee.1 Q)))⁻¹ • C75.area d (C75.tangents X.F sF X.S.pos ee.1 Q)) t (C75.along X.F sF u ee.1 Q) := by
    unfold Exchange.exchangeBuffer
    rw [store_at _ _ _ hee (mem_range.1 hQ)]
    simp only [C51.e00, exchangeShape, Bool.false_eq_true, if_false, Exchange.exchangeGrad]
    rw [q1, q2, C75.geometry_eq hF _ hee, h4, C75.flux_eq _ t _ _ _ hA, Option.getD_some, flatV_eq]
  have hz1 : ∀ D i j k, C51.e01 (R := ℝ) exchangeShape D i j k = 0 := fun _ _ _ _ => rfl
  have hz2 : ∀ D i j k, C51.e10 (R := ℝ) exchangeShape D i j k = 0 := fun _ _ _ _ => rfl
  have hz3 : ∀ D i j k m, C51.e11 (R := ℝ) exchangeShape D i j k m = 0 := fun _ _ _ _ _ => rfl
  simp only [hz1, hz2, hz3, hD1, zero_mul, sum_const_zero, add_zero]
  rfl

/-- The action as a sum over the integrals. -/
theorem conductAction_eq (h : Sound X s sF) (D : Slopes d) (old : Buffer ℝ) (t : ℝ) (u w : X.S.Nodal) (n : Fin X.S.nn) : X.conductAction D old t u w n =
    scatterE X.S.E.ndof X.S.ne X.S.conn (actionKernel X.S.E X.S.E 1 1 conductShape (X.S.conductBuffer D old u) X.S.elements
      (gatherE X.S.E.ndof X.S.conn (X.S.field w)) fun _ => 0) n (0 : Fin 1) +
    (X.S.sources.map fun src => scatterE X.S.E.ndof X.S.ne X.S.conn (actionKernel X.S.E X.S.E 1 1 sourceShape (X.S.sourceBuffer D src t old u) src.elements
      (gatherE X.S.E.ndof X.S.conn (X.S.field w)) fun _ => 0) n (0 : Fin 1)).sum +
    (X.fluxes.map fun l => scatterE X.F.E.ndof X.F.ne X.F.conn (actionKernel X.F.E X.F.E 1 1 exchangeShape (X.exchangeBuffer D l t old u) l.elements
      (gatherE X.F.E.ndof X.F.conn (X.S.field w)) fun _ => 0) n (0 : Fin 1)).sum := by
  have hd : 0 < X.S.E.dim := by rw [h.meaning.dim]; cases d <;> decide
  unfold Exchange.conductAction
  rw [foldl_sum, Pi.add_apply]
  refine congrArg₂ (· + ·) ?_ ?_
  · have : ∀ (l : List (Source d)) (r : ℕ → ℝ), scatterE X.S.E.ndof X.S.ne X.S.conn (l.foldl (fun r src => actionKernel X.S.E X.S.E 1 1 sourceShape
        (X.S.sourceBuffer D src t old u) src.elements (gatherE X.S.E.ndof X.S.conn (X.S.field w)) r) r) n (0 : Fin 1) = scatterE X.S.E.ndof X.S.ne X.S.conn r n (0 : Fin 1) +
        (l.map fun src => scatterE X.S.E.ndof X.S.ne X.S.conn (actionKernel X.S.E X.S.E 1 1 sourceShape (X.S.sourceBuffer D src t old u) src.elements
          (gatherE X.S.E.ndof X.S.conn (X.S.field w)) fun _ => 0) n (0 : Fin 1)).sum := by
      intro l
      induction l with
      | nil => intro r; simp
      | cons a l ih =>
        intro r
        rw [List.foldl_cons, ih, action_split h.meaning.test (by norm_num) hd, List.map_cons, List.sum_cons, add_assoc]
    exact this _ _
  · induction X.fluxes with
    | nil => rfl
    | cons l ls ih => rw [List.map_cons, List.sum_cons, Pi.add_apply, List.map_cons, List.sum_cons, ih]

/-- **C81, the form of the conduction matrix.**  Tested with any field: the change of the heat flux against the gradient, minus the change of what the sources supply, plus the
change of what leaves through the boundary. -/
theorem C81_form (h : Sound X s sF) (D : Slopes d) (old : Buffer ℝ) (t : ℝ) (u w v : X.S.Nodal) :
    ∑ n, X.conductAction D old t u w n * v n = conduction X s D u w v - feedback X s D t u w v + release X sF D t u w v := by
  simp only [conductAction_eq h, add_mul, sum_add_distrib]
  rw [conduct_tested h, sub_eq_add_neg]
  have hsum : ∀ {T : Type} (l : List T) (f : T → Fin X.S.nn → ℝ), ∑ n, (l.map fun a => f a n).sum * v n = (l.map fun a => ∑ n, f a n * v n).sum := by
    intro T l f
    induction l with
    | nil => simp
    | cons a l ih => simp only [List.map_cons, List.sum_cons, add_mul, sum_add_distrib, ih]
  refine congrArg₂ (· + ·) (congrArg₂ (· + ·) rfl ?_) ?_
  · rw [hsum, feedback, List.sum_neg, List.map_map]
    congr 1
    exact List.map_congr_left fun src hs => source_tested h D hs t old u w v
  · rw [hsum]
    unfold release
    congr 1
    exact List.map_congr_left fun l hl => exchange_tested h D hl t old u w v

/-- **C81, the form of the capacity matrix.** -/
theorem C81_store_form (h : Sound X s sF) (old : Buffer ℝ) (a w v : X.S.Nodal) : ∑ n, X.storeAction old a w n * v n = storage X s w v := by
  have hd : 0 < d.n := by cases d <;> decide
  have hm := h.meaning
  have ht := action_tested hm.test hm.trial (c := 1) (by norm_num) hm.dim hd massShape (X.S.storeBuffer old a) X.S.conn (fun e he => (h.good.1 e he).1) (X.S.field w)
    (X.S.field v)
  simp only [Fin.sum_univ_one] at ht
  refine ht.trans ?_
  unfold storage C72.integral
  congr 1
  refine List.map_congr_left fun ee hee => sum_congr rfl fun Q hQ => ?_
  congr 1
  obtain ⟨q1, q2⟩ := C75.at_div (p := ee.2) (mem_range.1 hQ)
  have hD : C51.e00 massShape (X.S.storeBuffer old a (ee.2 * X.S.E.npts + Q)) ((0 : Fin 1) : ℕ) ((0 : Fin 1) : ℕ) = C72.capacity X.S ee Q * (C72.jac X.S s ee.1 Q).det := by
    unfold Problem.storeBuffer
    rw [store_at _ _ _ hee (mem_range.1 hQ)]
    simp only [C51.e00, massShape, Bool.false_eq_true, if_false, Problem.storeGrad]
    rw [q1, q2, C72.jacobian_eq hm hee, Tensor.transpose_eq, Transform.det_eq, Matrix.det_transpose]
    rfl
  have hz1 : ∀ D i j k, C51.e01 (R := ℝ) massShape D i j k = 0 := fun _ _ _ _ => rfl
  have hz2 : ∀ D i j k, C51.e10 (R := ℝ) massShape D i j k = 0 := fun _ _ _ _ => rfl
  have hz3 : ∀ D i j k m, C51.e11 (R := ℝ) massShape D i j k m = 0 := fun _ _ _ _ _ => rfl
  simp only [hD, hz1, hz2, hz3, zero_mul, sum_const_zero, add_zero]
  change _ * C72.value X.S s w ee.1 Q * C72.value X.S s v ee.1 Q = _
  ring

theorem assemble_scalar {E : Elem ℝ} {phi dphi wt} (h : C51.Test E phi dphi wt) (h' : C51.Trial E phi dphi) (hd : 0 < E.dim) (z : Shape) (D : Buffer ℝ)
    {nn ne : ℕ} (conn : ℕ → ℕ → Fin nn) (elements : List ℕ) (w : Fin nn → ℝ) (n : Fin nn) :
    scatterE E.ndof ne conn (actionKernel E E 1 1 z D elements (gatherE E.ndof conn fun m (_ : Fin 1) => w m) fun _ => 0) n (0 : Fin 1) =
      ∑ m, assembleE E.ndof ne conn (gradientKernel E E 1 1 z D elements fun _ => 0) (n, (0 : Fin 1)) (m, 0) * w m := by
  rw [assemble_mul h h' (by norm_num) hd]
  exact sum_congr rfl fun m _ => Fin.sum_univ_one _

/-- **C81, matrix and action.**  The assembled matrices times a vector are the actions. -/
theorem C81_matrix (h : Sound X s sF) (D : Slopes d) (old old' : Buffer ℝ) (t : ℝ) (u a w : X.S.Nodal) :
    Elim.mulVec (X.conductMatrix D old t u) w = X.conductAction D old t u w ∧ Elim.mulVec (X.storeMatrix old' a) w = X.storeAction old' a w := by
  have hE : 0 < X.S.E.dim := by rw [h.meaning.dim]; cases d <;> decide
  have hE' : 0 < X.F.E.dim := by rw [h.faces.dim]; cases d <;> decide
  constructor
  · funext k
    rw [conductAction_eq h]
    unfold Elim.mulVec Exchange.conductMatrix
    have hz : ∀ (l : List (Source d)) (K : ℕ → ℝ) (m : Fin X.S.nn), assembleE X.S.E.ndof X.S.ne X.S.conn (l.foldl (fun K src => gradientKernel X.S.E X.S.E 1 1 sourceShape
        (X.S.sourceBuffer D src t old u) src.elements K) K) (k, (0 : Fin 1)) (m, 0) = assembleE X.S.E.ndof X.S.ne X.S.conn K (k, (0 : Fin 1)) (m, 0) +
        (l.map fun src => assembleE X.S.E.ndof X.S.ne X.S.conn (gradientKernel X.S.E X.S.E 1 1 sourceShape (X.S.sourceBuffer D src t old u) src.elements fun _ => 0)
          (k, (0 : Fin 1)) (m, 0)).sum := by
      intro l
      induction l with
      | nil => intro K m; simp
      | cons a l ih =>
        intro K m
        rw [List.foldl_cons, ih, gradient_split h.meaning.test h.meaning.trial (by norm_num) hE, List.map_cons, List.sum_cons, add_assoc]
    simp only [foldl_sum, hz, add_mul, sum_add_distrib]
    have hsum : ∀ {T : Type} (l : List T) (f : T → Fin X.S.nn → ℝ), ∑ n, (l.map fun a => f a n).sum * w n = (l.map fun a => ∑ n, f a n * w n).sum := by
      intro T l f
      induction l with
      | nil => simp
      | cons a l ih => simp only [List.map_cons, List.sum_cons, add_mul, sum_add_distrib, ih]
    refine congrArg₂ (· + ·) (congrArg₂ (· + ·) ?_ ?_) ?_
    · exact (assemble_scalar h.meaning.test h.meaning.trial hE _ _ _ _ _ _).symm
    · rw [hsum]
      congr 1
      exact List.map_congr_left fun src _ => (assemble_scalar h.meaning.test h.meaning.trial hE _ _ _ _ _ _).symm
    · rw [hsum]
      congr 1
      exact List.map_congr_left fun l _ => (assemble_scalar h.faces.test h.faces.trial hE' _ _ _ _ _ _).symm
  · funext k
    exact (assemble_scalar h.meaning.test h.meaning.trial hE _ _ _ _ _ _).symm

end Forms

/-! ## The derivative of the residual -/

section Derivative
variable {d : Dim} (X : Exchange d) (s sF : Shapes)

/-- `D` are the derivatives of the user's functions at the temperature `u` and time `t`: near it the flux of the material is defined, and everything is differentiable. -/
structure Tangent (D : Slopes d) (t : ℝ) (u : X.S.Nodal) : Prop where
  flux : ∀ ee ∈ X.S.elements.zipIdx, ∀ Q < X.S.E.npts,
    let p := ee.2 * X.S.E.npts + Q
    let y : ℝ × (Fin d.n → ℝ) := (C72.value X.S s u ee.1 Q, C72.grad X.S s u ee.1 Q)
    (∀ᶠ z : ℝ × (Fin d.n → ℝ) in nhds y, ((X.S.material p).flux z.1 z.2).isSome) ∧
    ∀ m, Diff (fun z : ℝ × (Fin d.n → ℝ) => ((X.S.material p).flux z.1 z.2).getD 0 m) (fun z => D.fluxT p y.1 y.2 m * z.1 + ∑ n, D.fluxG p y.1 y.2 m n * z.2 n) y
  source : ∀ src ∈ X.S.sources, ∀ ee ∈ src.elements.zipIdx, ∀ Q < X.S.E.npts,
    let p := ee.2 * X.S.E.npts + Q
    let y : ℝ × (Fin d.n → ℝ) := (C72.value X.S s u ee.1 Q, C72.grad X.S s u ee.1 Q)
    Diff (fun z : ℝ × (Fin d.n → ℝ) => src.value t p z.1 z.2) (fun z => D.sourceT src t p y.1 y.2 * z.1 + ∑ n, D.sourceG src t p y.1 y.2 n * z.2 n) y
  exchange : ∀ l ∈ X.fluxes, ∀ ee ∈ l.elements.zipIdx, ∀ Q < X.F.E.npts,
    let A := C75.area d (C75.tangents X.F sF X.S.pos ee.1 Q)
    let x := C75.place X.F sF X.S.pos ee.1 Q
    let T := C75.along X.F sF u ee.1 Q
    Diff (fun z : ℝ => l.f x ((C75.size A)⁻¹ • A) t z) (fun z => D.exchange l x ((C75.size A)⁻¹ • A) t T * z) T

variable {X s sF}

/-- The vector with a one at `k`. -/
def one {n : ℕ} (k : Fin n) : Fin n → ℝ := fun m => if m = k then 1 else 0

theorem dot_one {n : ℕ} (r : Fin n → ℝ) (k : Fin n) : ∑ m, r m * one k m = r k := by simp [one]

/-- Temperature and gradient at a point, and the temperature at a point of the boundary, as linear maps. -/
def pointMap (X : Exchange d) (s : Shapes) (e Q : ℕ) : X.S.Nodal →L[ℝ] ℝ × (Fin d.n → ℝ) :=
  LinearMap.toContinuousLinearMap
    { toFun := fun v => (C72.value X.S s v e Q, C72.grad X.S s v e Q)
      map_add' := fun v w => by
        refine Prod.ext ?_ (funext fun j => ?_)
        · have := C72.value_lin (S := X.S) (s := s) 1 1 v w e Q
          simp only [one_mul] at this
          exact this
        · have := C72.grad_lin (S := X.S) (s := s) 1 1 v w e Q j
          simp only [one_mul] at this
          exact this
      map_smul' := fun x v => by
        refine Prod.ext ?_ (funext fun j => ?_)
        · have := C72.value_lin (S := X.S) (s := s) x 0 v v e Q
          simp only [zero_mul, add_zero] at this
          exact this
        · have := C72.grad_lin (S := X.S) (s := s) x 0 v v e Q j
          simp only [zero_mul, add_zero] at this
          exact this }

def alongMap (X : Exchange d) (sF : Shapes) (e Q : ℕ) : X.S.Nodal →L[ℝ] ℝ :=
  LinearMap.toContinuousLinearMap
    { toFun := fun v => C75.along X.F sF v e Q
      map_add' := fun v w => by
        have := C75.along_lin (F := X.F) (s := sF) 1 1 v w e Q
        simp only [one_mul] at this
        exact this
      map_smul' := fun x v => by
        have := C75.along_lin (F := X.F) (s := sF) x 0 v v e Q
        simp only [zero_mul, add_zero] at this
        exact this }

/-- The heat flux the residual uses, zero where there is none. -/
def fluxes (X : Exchange d) (s : Shapes) (u : X.S.Nodal) (ee : ℕ × ℕ) (Q : ℕ) : Vec ℝ d.n :=
  ((X.S.material (ee.2 * X.S.E.npts + Q)).flux (C72.value X.S s u ee.1 Q) (C72.grad X.S s u ee.1 Q)).getD 0

theorem near {D : Slopes d} {t : ℝ} {u : X.S.Nodal} (hD : Tangent X s sF D t u) : ∀ᶠ w in nhds u, C72.Flux X.S s w (fluxes X s w) := by
  have h : ∀ᶠ w in nhds u, ∀ ee ∈ X.S.elements.zipIdx, ∀ Q ∈ List.range X.S.E.npts,
      ((X.S.material (ee.2 * X.S.E.npts + Q)).flux (C72.value X.S s w ee.1 Q) (C72.grad X.S s w ee.1 Q)).isSome := by
    refine eventually_list _ _ _ fun ee hee => eventually_list _ _ _ fun Q hQ => ?_
    exact (pointMap X s ee.1 Q).continuous.continuousAt.eventually (hD.flux ee hee Q (List.mem_range.1 hQ)).1
  filter_upwards [h] with w hw ee hee Q hQ
  unfold fluxes
  obtain ⟨q, hq⟩ := Option.isSome_iff_exists.1 (hw ee hee Q (List.mem_range.2 hQ))
  rw [hq, Option.getD_some]

theorem residual_diff (h : Sound X s sF) {D : Slopes d} {t : ℝ} {u : X.S.Nodal} (hD : Tangent X s sF D t u) (a : X.S.Nodal) (old : Buffer ℝ) (k : Fin X.S.nn) :
    Diff (fun w : X.S.Nodal => X.residual t w a k) (fun w => X.conductAction D old t u w k) u := by
  have h1 : Diff (fun w : X.S.Nodal => C72.integral X.S s X.S.elements (fun ee Q => C72.capacity X.S ee Q * C72.value X.S s a ee.1 Q * C72.value X.S s (one k) ee.1 Q -
      ∑ j, fluxes X s w ee Q j * C72.grad X.S s (one k) ee.1 Q j)) (fun w => conduction X s D u w (one k)) u := by
    unfold C72.integral conduction C72.integral
    refine Diff.list _ fun ee hee => Diff.sum _ fun Q hQ => Diff.const_mul _ (Diff.const_mul _ ?_)
    refine Diff.congr (Diff.sub (Diff.const _ u) (Diff.sum _ fun m _ => Diff.mul_const _ (Diff.comp (pointMap X s ee.1 Q) ((hD.flux ee hee Q (mem_range.1 hQ)).2 m))))
      (fun w => rfl) fun w => ?_
    dsimp only
    rw [zero_sub]
    rfl
  have h2 : Diff (fun w : X.S.Nodal => C72.supplied X.S s t w (one k)) (fun w => feedback X s D t u w (one k)) u := by
    unfold C72.supplied feedback C72.integral
    refine Diff.list _ fun src hs => Diff.list _ fun ee hee => Diff.sum _ fun Q hQ => Diff.const_mul _ (Diff.const_mul _ (Diff.mul_const _ ?_))
    exact Diff.comp (pointMap X s ee.1 Q) (hD.source src hs ee hee Q (mem_range.1 hQ))
  have h3 : Diff (fun w : X.S.Nodal => C75.outflow X sF t w (one k)) (fun w => release X sF D t u w (one k)) u := by
    unfold C75.outflow release C75.integral
    refine Diff.list _ fun l hl => Diff.list _ fun ee hee => Diff.sum _ fun Q hQ => Diff.const_mul _ (Diff.mul_const _ ?_)
    refine Diff.congr (Diff.const_mul _ (Diff.comp (alongMap X sF ee.1 Q) (hD.exchange l hl ee hee Q (mem_range.1 hQ)))) (fun w => rfl) fun w => ?_
    rw [mul_assoc]
    rfl
  refine (((h1.sub h2).add h3).congr_near ?_).congr (fun w => rfl) fun w => ?_
  · filter_upwards [near hD] with w hw
    rw [← dot_one (X.residual t w a) k, C75.C75_heat_weak_form h.meaning h.good h.faces h.fluxes t w a _ _ hw]
  · rw [← dot_one (X.conductAction D old t u w) k, C81_form h]

/-- **C81, the derivative.**  Where the user's functions are differentiable the residual is differentiable in the temperature, and its derivative is the assembled matrix:
for any mesh, materials, sources and fluxes through the boundary, whatever the buffers held before. -/
theorem C81_derivative (h : Sound X s sF) {D : Slopes d} {t : ℝ} {u : X.S.Nodal} (hD : Tangent X s sF D t u) (a : X.S.Nodal) (old : Buffer ℝ) :
    ∃ L : (Fin X.S.nn → ℝ) →L[ℝ] (Fin X.S.nn → ℝ), (∀ w, L w = Elim.mulVec (X.conductMatrix D old t u) w) ∧ HasFDerivAt (fun w : Fin X.S.nn → ℝ => X.residual t w a) L u := by
  obtain ⟨L, h1, h2⟩ := Diff.pi fun k => residual_diff h hD a old k
  exact ⟨L, fun w => by rw [h1, (C81_matrix h D old old t u u w).1], h2⟩

theorem storage_lin (x y : ℝ) (w w' v : X.S.Nodal) : storage X s (x • w + y • w') v = x * storage X s w v + y * storage X s w' v := by
  unfold storage
  rw [← C72.integral_lin]
  refine C72.integral_congr fun ee _ Q _ => ?_
  rw [show (x • w + y • w' : X.S.Nodal) = fun n => x * w n + y * w' n from rfl, C72.value_lin]
  ring

/-- The residual of a temperature that depends on the rate. -/
theorem rate_diff (h : Sound X s sF) (st : Ode.State1 X.S.nn) {D : Slopes d} {a : X.S.Nodal} (hD : Tangent X s sF D st.time fun m => 1 * st.u m + st.dt * a m)
    (old old' : Buffer ℝ) (k : Fin X.S.nn) :
    Diff (fun b : X.S.Nodal => X.residual st.time (fun m => 1 * st.u m + st.dt * b m) b k) (fun b => Elim.mulVec (X.rateMatrix D old old' st a) b k) a := by
  set S : X.S.Nodal →L[ℝ] X.S.Nodal := st.dt • ContinuousLinearMap.id ℝ _ with hS
  have hu : ∀ b : X.S.Nodal, (fun m => 1 * st.u m + st.dt * b m) = st.u + S b := by
    intro b
    funext m
    simp [hS]
  have hU := hD
  rw [hu] at hU
  have h1 : Diff (fun b : X.S.Nodal => X.residual st.time (st.u + S b) a k) (fun b => X.conductAction D old st.time (st.u + S a) (S b) k) a :=
    Diff.comp_affine S st.u (residual_diff h hU a old k)
  have h2 : Diff (fun b : X.S.Nodal => storage X s b (one k)) (fun b => storage X s b (one k)) a := Diff.lin (fun x y b c => storage_lin x y b c _) a
  have h3 := Diff.add h1 ((h2.sub (Diff.const (storage X s a (one k)) a)))
  refine (h3.congr_near ?_).congr (fun b => rfl) fun b => ?_
  · have hc : Continuous fun b : X.S.Nodal => st.u + S b := continuous_const.add S.continuous
    filter_upwards [hc.continuousAt.eventually (near hU)] with b hb
    rw [hu, ← dot_one (X.residual st.time (st.u + S b) b) k, ← dot_one (X.residual st.time (st.u + S b) a) k,
      C75.C75_heat_weak_form h.meaning h.good h.faces h.fluxes st.time _ b _ _ hb, C75.C75_heat_weak_form h.meaning h.good h.faces h.fluxes st.time _ a _ _ hb]
    have e : ∀ c : X.S.Nodal, C72.integral X.S s X.S.elements (fun ee Q => C72.capacity X.S ee Q * C72.value X.S s c ee.1 Q * C72.value X.S s (one k) ee.1 Q -
        ∑ j, fluxes X s (st.u + S b) ee Q j * C72.grad X.S s (one k) ee.1 Q j) = storage X s c (one k) -
        C72.integral X.S s X.S.elements fun ee Q => ∑ j, fluxes X s (st.u + S b) ee Q j * C72.grad X.S s (one k) ee.1 Q j := by
      intro c
      have := C72.integral_lin (S := X.S) (s := s) X.S.elements 1 (-1) (fun ee Q => C72.capacity X.S ee Q * C72.value X.S s c ee.1 Q * C72.value X.S s (one k) ee.1 Q)
        fun ee Q => ∑ j, fluxes X s (st.u + S b) ee Q j * C72.grad X.S s (one k) ee.1 Q j
      rw [one_mul, neg_one_mul, ← sub_eq_add_neg] at this
      refine Eq.trans (C72.integral_congr fun ee _ Q _ => ?_) this
      ring
    rw [e, e]
    ring
  · have e1 := congrFun (C81_matrix h D old old' st.time (st.u + S a) a b).1 k
    have e2 := congrFun (C81_matrix h D old old' st.time (st.u + S a) a b).2 k
    have e3 : X.conductAction D old st.time (st.u + S a) (S b) k = st.dt * X.conductAction D old st.time (st.u + S a) b k := by
      rw [← (C81_matrix h D old old' st.time (st.u + S a) a (S b)).1, ← e1]
      unfold Elim.mulVec
      rw [mul_sum]
      exact sum_congr rfl fun m _ => by simp [hS]; ring
    rw [e3, ← e1, sub_zero, ← C81_store_form h old' a b (one k), dot_one, ← e2, ← hu]
    unfold Elim.mulVec Exchange.rateMatrix
    rw [mul_sum, ← sum_add_distrib]
    exact sum_congr rfl fun m _ => by ring

/-- **C81, transient problems.**  The residual of the rate has the derivative `M + dt K`, where `K` is taken at the predicted temperature; on changes that keep the
fixed dofs it is the eliminated matrix that the linear solver gets. -/
theorem C81_transient (h : Sound X s sF) (fixed : List (Fin X.S.nn)) (st : Ode.State1 X.S.nn) {D : Slopes d} {a : X.S.Nodal}
    (hD : Tangent X s sF D st.time fun m => 1 * st.u m + st.dt * a m) (old old' : Buffer ℝ) :
    ∃ L : (Fin X.S.nn → ℝ) →L[ℝ] (Fin X.S.nn → ℝ), (∀ b k, L b k = if k ∈ fixed then 0 else Elim.mulVec (X.rateMatrix D old old' st a) b k) ∧
      HasFDerivAt (X.rateResidual fixed st : (Fin X.S.nn → ℝ) → Fin X.S.nn → ℝ) L a ∧
      ∀ b, (∀ k ∈ fixed, b k = 0) → L b = Elim.mulVec (X.rateJacobian D old old' fixed st a).1 b := by
  have h' : ∀ k, Diff (fun b : Fin X.S.nn → ℝ => X.rateResidual fixed st b k) (fun b => if k ∈ fixed then 0 else Elim.mulVec (X.rateMatrix D old old' st a) b k) a := fun k =>
    Diff.ite_zero fun _ => rate_diff h st hD old old' k
  obtain ⟨L, h1, h2⟩ := Diff.pi (f' := fun b k => if k ∈ fixed then 0 else Elim.mulVec (X.rateMatrix D old old' st a) b k) h'
  refine ⟨L, fun b k => by rw [h1], h2, fun b hb => ?_⟩
  rw [h1, Exchange.rateJacobian]
  exact (elim_free _ fixed b hb).symm

/-- **C81, quasi-static problems.** -/
theorem C81_static (h : Sound X s sF) (fixed : List (Fin X.S.nn)) {D : Slopes d} {t : ℝ} {u : X.S.Nodal} (hD : Tangent X s sF D t u) (a : X.S.Nodal) (old : Buffer ℝ) :
    ∃ L : (Fin X.S.nn → ℝ) →L[ℝ] (Fin X.S.nn → ℝ), (∀ w k, L w k = if k ∈ fixed then 0 else Elim.mulVec (X.conductMatrix D old t u) w k) ∧
      HasFDerivAt (X.staticResidual fixed t a : (Fin X.S.nn → ℝ) → Fin X.S.nn → ℝ) L u ∧
      (∀ w, (∀ k ∈ fixed, w k = 0) → L w = Elim.mulVec (X.staticJacobian D old fixed t u).1 w) ∧
      ∀ k m, (X.staticJacobian D old fixed t u).1 k m + (X.staticJacobian D old fixed t u).2 k m = X.conductMatrix D old t u k m := by
  have h' : ∀ k, Diff (fun w : Fin X.S.nn → ℝ => X.staticResidual fixed t a w k) (fun w => if k ∈ fixed then 0 else Elim.mulVec (X.conductMatrix D old t u) w k) u := fun k =>
    Diff.ite_zero fun _ => (residual_diff h hD a old k).congr (fun _ => rfl) fun w => by rw [(C81_matrix h D old old t u u w).1]
  obtain ⟨L, h1, h2⟩ := Diff.pi (f' := fun w k => if k ∈ fixed then 0 else Elim.mulVec (X.conductMatrix D old t u) w k) h'
  refine ⟨L, fun w k => by rw [h1], h2, fun w hw => ?_, fun k m => C26.C26_sum _ _ _ _⟩
  rw [h1, Exchange.staticJacobian]
  exact (elim_free _ fixed w hw).symm

end Derivative

/-! ## Symmetry, and the shipped materials -/

section Materials
variable {d : Dim} {X : Exchange d} {s sF : Shapes}

/-- **C81, symmetry.**  The matrix of the rate is symmetric; that of the temperature is, if the flux depends on the gradient only and by a symmetric matrix, and the sources do
not depend on the gradient. -/
theorem C81_symmetric (h : Sound X s sF) (D : Slopes d) (old : Buffer ℝ) (t : ℝ) (u a : X.S.Nodal) :
    (∀ k m, X.storeMatrix old a k m = X.storeMatrix old a m k) ∧
    ((∀ p T g m, D.fluxT p T g m = 0) → (∀ p T g m n, D.fluxG p T g m n = D.fluxG p T g n m) → (∀ src t p T g m, D.sourceG src t p T g m = 0) →
      ∀ k m, X.conductMatrix D old t u k m = X.conductMatrix D old t u m k) := by
  have entry : ∀ (K : Elim.Mat X.S.nn) (k m : Fin X.S.nn), ∑ n, Elim.mulVec K (one m) n * one k n = K k m := by
    intro K k m
    rw [dot_one]
    exact dot_one (K k) m
  constructor
  · intro k m
    rw [← entry (X.storeMatrix old a) k m, ← entry (X.storeMatrix old a) m k, (C81_matrix h D old old t u a _).2, (C81_matrix h D old old t u a _).2, C81_store_form h, C81_store_form h]
    exact C72.integral_congr fun ee _ Q _ => by ring
  · intro hT hG hS k m
    rw [← entry (X.conductMatrix D old t u) k m, ← entry (X.conductMatrix D old t u) m k, (C81_matrix h D old old t u a _).1, (C81_matrix h D old old t u a _).1, C81_form h, C81_form h]
    have e1 : ∀ w v : X.S.Nodal, conduction X s D u w v = conduction X s D u v w := by
      intro w v
      refine C72.integral_congr fun ee _ Q _ => ?_
      dsimp only
      simp only [hT, zero_mul, zero_add, sum_mul]
      rw [sum_comm]
      congr 1
      refine sum_congr rfl fun i _ => sum_congr rfl fun j _ => ?_
      rw [hG _ _ _ j i]
      ring
    have e2 : ∀ w v : X.S.Nodal, feedback X s D t u w v = feedback X s D t u v w := by
      intro w v
      unfold feedback
      congr 1
      refine List.map_congr_left fun src _ => C72.integral_congr fun ee _ Q _ => ?_
      dsimp only
      simp only [hS, zero_mul, sum_const_zero, add_zero]
      ring
    have e3 : ∀ w v : X.S.Nodal, release X sF D t u w v = release X sF D t u v w := by
      intro w v
      unfold release
      congr 1
      refine List.map_congr_left fun l _ => C75.integral_congr fun ee _ Q _ => ?_
      dsimp only
      ring
    rw [e1, e2, e3]

/-- `a`, `B` are the derivatives of the flux of a material by temperature and gradient: the condition that `Tangent` puts on the material of a point. -/
def Conducts {n : ℕ} (m : Conductors.Material n) (T : ℝ) (g a : Fin n → ℝ) (B : M n) : Prop :=
  (∀ᶠ z : ℝ × (Fin n → ℝ) in nhds (T, g), (m.flux z.1 z.2).isSome) ∧
  ∀ i, Diff (fun z : ℝ × (Fin n → ℝ) => (m.flux z.1 z.2).getD 0 i) (fun z => a i * z.1 + ∑ j, B i j * z.2 j) (T, g)

/-- A flux linear in the gradient. -/
theorem conducts_linear {n : ℕ} {m : Conductors.Material n} {A : M n} (h : ∀ T g, m.flux T g = some fun i => -∑ j, A i j * g j) (T : ℝ) (g : Fin n → ℝ) :
    Conducts m T g 0 (-A) := by
  refine ⟨Filter.Eventually.of_forall fun z => by rw [h]; rfl, fun i => ?_⟩
  refine (Diff.lin (f := fun z : ℝ × (Fin n → ℝ) => -∑ j, A i j * z.2 j) (fun a b y z => ?_) _).congr (fun z => by rw [h]; rfl) fun z => ?_
  · simp only [Prod.snd_add, Prod.smul_snd, Pi.add_apply, Pi.smul_apply, smul_eq_mul]
    rw [← neg_mul_eq_mul_neg, ← neg_mul_eq_mul_neg, mul_sum, mul_sum, ← neg_add, ← sum_add_distrib]
    congr 1
    exact sum_congr rfl fun j _ => by ring
  · simp [sum_neg_distrib]

/-- **C81, the shipped conductors.**  `LinearIsotropicConductor` and `LinearConductor` have constant tangents; that of the conductivity linear in the temperature has both
parts, wherever the conductivity is positive. -/
theorem C81_conductors (n : ℕ) (density cp : ℝ) (m : Conductors.Material n) (T : ℝ) (g : Fin n → ℝ) :
    (∀ k, Conductors.isotropic n density cp k = some m → Conducts m T g 0 (-(k • (1 : M n)))) ∧
    (∀ spd A, Conductors.anisotropic spd density cp A = some m → Conducts m T g 0 (-A)) ∧
    (∀ k0 slope, Conductors.temperatureDependent n density cp k0 slope = some m → 0 < k0 + slope * T → Conducts m T g (-(slope • g)) (-((k0 + slope * T) • (1 : M n)))) := by
  refine ⟨fun k hm => conducts_linear (C72.C72_conductors n density cp k m hm).1 T g,
    fun spd A hm => conducts_linear (C72.C72_conductors_anisotropic n spd density cp A m hm).1 T g, fun k0 slope hm hT => ?_⟩
  have hf := fun z : ℝ × (Fin n → ℝ) => ((C49.C49_temperature n density cp k0 slope m hm).2.2 z.1 z.2).1
  have hn : ∀ᶠ z : ℝ × (Fin n → ℝ) in nhds (T, g), 0 ≤ k0 + slope * z.1 := by
    have hc : ContinuousAt (fun z : ℝ × (Fin n → ℝ) => k0 + slope * z.1) (T, g) := by fun_prop
    filter_upwards [hc.eventually (lt_mem_nhds hT)] with z hz using le_of_lt hz
  refine ⟨?_, fun i => ?_⟩
  · filter_upwards [hn] with z hz
    rw [hf z hz]
    rfl
  · have h1 : Diff (fun z : ℝ × (Fin n → ℝ) => k0 + slope * z.1) (fun z => slope * z.1) (T, g) :=
      Diff.const_add k0 (Diff.lin (f := fun z : ℝ × (Fin n → ℝ) => slope * z.1) (fun a b y z => by
        simp only [Prod.fst_add, Prod.smul_fst, smul_eq_mul]; ring) _)
    have h2 : Diff (fun z : ℝ × (Fin n → ℝ) => z.2 i) (fun z => z.2 i) (T, g) :=
      Diff.lin (f := fun z : ℝ × (Fin n → ℝ) => z.2 i) (fun a b y z => by
        simp only [Prod.snd_add, Prod.smul_snd, Pi.add_apply, Pi.smul_apply, smul_eq_mul]) _
    refine ((h1.mul h2).neg.congr (fun _ => rfl) fun z => ?_).congr_near ?_
    · simp [Matrix.one_apply]
      ring
    · filter_upwards [hn] with z hz
      rw [hf z hz]
      simp

end Materials

/-! ## Newton's method on an affine residual -/

section Affine
open Serac.Elim (mulVec elim)
variable {n : ℕ}

/-- The residual is affine, `J` its matrix, definite on the vectors that vanish at the fixed dofs. -/
structure Affine (fixed : List (Fin n)) (R : Elim.Vec n → Elim.Vec n) (J : Elim.Vec n → Elim.Mat n) : Prop where
  affine : ∀ u w, R (u + w) = R u + mulVec (J u) w
  definite : ∀ u w, (∀ k ∈ fixed, w k = 0) → ∑ k, mulVec (J u) w k * w k = 0 → w = 0

/-- The options make the Newton solver iterate unless the residual is zero. -/
def Iterates (o : Newton.Options) : Prop := 0 < o.maxIter ∧ (0 < o.minIter ∨ (o.relTol < 1 ∧ o.absTol = 0))

variable {fixed : List (Fin n)} {R : Elim.Vec n → Elim.Vec n} {J : Elim.Vec n → Elim.Mat n}

theorem Affine.injective (h : Affine fixed R J) (u : Elim.Vec n) {x : Elim.Vec n} (hx : mulVec (elim (J u) fixed) x = 0) : x = 0 := by
  have hf : ∀ k ∈ fixed, x k = 0 := C26.C26_exact_correction _ fixed x 0 (Submodule.zero_mem _) fun k _ => congrFun hx k
  refine h.definite u x hf (sum_eq_zero fun k _ => ?_)
  by_cases hk : k ∈ fixed
  · rw [hf k hk, mul_zero]
  · have := congrFun hx k
    rw [elim_free _ fixed x hf] at this
    simp only [if_neg hk] at this
    rw [this]
    simp

theorem Affine.surjective (h : Affine fixed R J) (u b : Elim.Vec n) : ∃ x, mulVec (elim (J u) fixed) x = b := by
  let T : Elim.Vec n →ₗ[ℝ] Elim.Vec n := Matrix.mulVecLin (Matrix.of (elim (J u) fixed))
  have hi : Function.Injective T := by
    rw [← LinearMap.ker_eq_bot, LinearMap.ker_eq_bot']
    exact fun x hx => h.injective u hx
  obtain ⟨x, hx⟩ := (LinearMap.injective_iff_surjective.1 hi) b
  exact ⟨x, hx⟩

/-- Two zeros with the same values at the fixed dofs are one. -/
theorem Affine.unique (h : Affine fixed R J) {u u' : Elim.Vec n} (hu : ∀ k ∉ fixed, R u k = 0) (hu' : ∀ k ∉ fixed, R u' k = 0) (he : ∀ k ∈ fixed, u k = u' k) : u = u' := by
  have hz : ∀ k ∈ fixed, (u' - u) k = 0 := fun k hk => by simp [he k hk]
  have := h.definite u (u' - u) hz (sum_eq_zero fun k _ => ?_)
  · exact (sub_eq_zero.1 this).symm
  · by_cases hk : k ∈ fixed
    · rw [hz k hk, mul_zero]
    · have e := congrFun (h.affine u (u' - u)) k
      rw [add_sub_cancel, Pi.add_apply, hu k hk, hu' k hk, zero_add] at e
      rw [← e, zero_mul]

/-- There is one, for any values. -/
theorem Affine.exists (h : Affine fixed R J) (g : Elim.Vec n) : ∃ u, (∀ k ∈ fixed, u k = g k) ∧ ∀ k ∉ fixed, R u k = 0 := by
  obtain ⟨c, hc⟩ := h.surjective g fun k => if k ∈ fixed then 0 else -R g k
  have hf : ∀ k ∈ fixed, c k = 0 := C26.C26_exact_correction (J g) fixed c (fun k => if k ∈ fixed then 0 else -R g k) (fun k hk => if_pos hk) fun k _ => congrFun hc k
  refine ⟨g + c, fun k hk => by simp [hf k hk], fun k hk => ?_⟩
  have e := congrFun hc k
  rw [elim_free _ fixed c hf] at e
  simp only [if_neg hk] at e
  rw [h.affine, Pi.add_apply, e, add_neg_cancel]

/-- Newton's method finds it in one step, whatever the line search. -/
theorem Affine.newton (h : Affine fixed R J) {linear : Elim.Mat n → Elim.Vec n → Elim.Vec n} {norm : Elim.Vec n → Newton.Num} (hlin : C78.Exact linear) (hnorm : C78.Length norm)
    (o : Newton.Options) (ho : Iterates o) (u0 r0 : Elim.Vec n) (rep : Newton.Report) :
    let u := (Newton.mult ⟨Elim.residualOp (fun u => some (R u)) fixed, norm, fun u r => linear (elim (J u) fixed) r⟩ o u0 r0 rep).1.x
    (∀ k ∈ fixed, u k = u0 k) ∧ ∀ k ∉ fixed, R u k = 0 := by
  set p : Newton.Problem (Elim.Vec n) (Elim.Vec n) := ⟨Elim.residualOp (fun u => some (R u)) fixed, norm, fun u r => linear (elim (J u) fixed) r⟩ with hp
  set Z : Elim.Vec n → Elim.Vec n := fun u k => if k ∈ fixed then 0 else R u k with hZ
  have zero : ∀ u, Z u = 0 ↔ ∀ k ∉ fixed, R u k = 0 := by
    intro u
    constructor
    · intro hu k hk
      have := congrFun hu k
      simp only [hZ, if_neg hk] at this
      exact this
    · intro hu
      funext k
      simp only [hZ]
      split_ifs with hk
      · rfl
      · exact hu k hk
  have oper : ∀ u r, Newton.evaluateNorm p u r = (norm (Z u), Z u) := by
    intro u r
    have : Elim.zeroSub fixed (R u) = Z u := funext fun k => C78.zeroSub_apply fixed _ k
    unfold Newton.evaluateNorm
    rw [hp]
    unfold Elim.residualOp
    dsimp only
    rw [this]
  have sol : ∀ u b, mulVec (elim (J u) fixed) (p.correction u b) = b := fun u b => hlin _ _ (h.surjective u b)
  have stay : ∀ u, Z u = 0 → ∀ q, p.correction u (Newton.evaluateNorm p u q).2 = 0 := by
    intro u hu q
    rw [oper, hu]
    exact h.injective u (sol u 0)
  dsimp only
  obtain ⟨x, hx, hx0, hxz⟩ := hnorm (Z u0)
  by_cases hz : x = 0
  · have : (Newton.mult p o u0 r0 rep).1.x = u0 := C78.loop_stay p o _ _ u0 (stay u0 (hxz.1 hz)) 0 _ rfl ⟨r0, rfl⟩
    rw [this]
    exact ⟨fun _ _ => rfl, (zero u0).1 (hxz.1 hz)⟩
  · have hpos : 0 < x := lt_of_le_of_ne hx0 (Ne.symm hz)
    unfold Newton.mult
    set s0 : Newton.Iter (Elim.Vec n) (Elim.Vec n) := Newton.evalAt p u0 ⟨u0, r0, .nan, []⟩ with hs0
    have hsx : s0.x = u0 := rfl
    have hsn : s0.norm = .fin x := by
      rw [← hx]
      exact congrArg Prod.fst (oper u0 r0)
    have hsr : s0.r = Z u0 := congrArg Prod.snd (oper u0 r0)
    dsimp only
    set goal := Newton.Num.max (Newton.Num.scale o.relTol s0.norm) (.fin o.absTol) with hgoal
    rw [Newton.loop, hsn]
    dsimp only
    split_ifs with h1 h2
    · exfalso
      rcases ho.2 with hm | ⟨hr, ha⟩
      · exact absurd (Nat.le_zero.1 h1.2) hm.ne'
      · have h1' := h1.1
        rw [hgoal, hsn, ha] at h1'
        change (Newton.Num.fin x).le (Newton.Num.max (.fin (o.relTol * x)) _) at h1'
        have hr' : (o.relTol : ℝ) < 1 := hr
        unfold Newton.Num.max at h1'
        split_ifs at h1'
        · exact absurd (show x ≤ ((0 : NNReal) : ℝ) from h1') (not_le.2 hpos)
        · have : x ≤ o.relTol * x := h1'
          nlinarith
    · exact absurd (Nat.le_zero.1 h2) ho.1.ne'
    · set c := p.correction s0.x s0.r with hc
      have hcs : mulVec (elim (J u0) fixed) c = Z u0 := by rw [hc, hsx, sol u0, hsr]
      have hf : ∀ k ∈ fixed, c k = 0 := C26.C26_exact_correction (J u0) fixed c (Z u0) (fun k hk => if_pos hk) fun k _ => congrFun hcs k
      have heq : ∀ k ∉ fixed, R (u0 - c) k = 0 := by
        intro k hk
        have e := congrFun hcs k
        rw [elim_free _ fixed c hf] at e
        simp only [if_neg hk, hZ] at e
        have hneg : mulVec (J u0) (-c) k = -mulVec (J u0) c k := by
          unfold Elim.mulVec
          simp [sum_neg_distrib]
        rw [sub_eq_add_neg, h.affine, Pi.add_apply, hneg, e, add_neg_cancel]
      have hu1 : s0.x + ((-1 : ℝ) * 1) • c = u0 - c := by rw [hsx, mul_one, neg_one_smul, ← sub_eq_add_neg]
      have hnew : (Newton.evalAt p (u0 - c) s0).norm = .fin 0 := by
        obtain ⟨y, hy, _, hyz⟩ := hnorm (Z (u0 - c))
        have : (Newton.evalAt p (u0 - c) s0).norm = norm (Z (u0 - c)) := congrArg Prod.fst (oper (u0 - c) s0.r)
        rw [this, hy, hyz.2 ((zero _).2 heq)]
      have hit : Newton.iterate p o s0 = Newton.evalAt p (u0 - c) s0 := by
        rw [C78.iterate_full p o s0, ← hc, hu1]
        rw [← hc, hu1, hnew, hsn]
        exact hpos
      rw [hit, C78.loop_stay p o goal _ (u0 - c) (stay _ ((zero _).2 heq)) 1 _ rfl ⟨s0.r, rfl⟩]
      exact ⟨fun k hk => by simp [hf k hk], heq⟩

end Affine

/-! ## Linear problems -/

section Linear
open Serac.Elim (mulVec elim)
open Serac.Ode (State1 Run1 BCs Prescribes Keeps)
variable {d : Dim} (X : Exchange d) (s sF : Shapes) (A : ℕ → M d.n) (g h : Flux d → Vec ℝ d.n → Vec ℝ d.n → ℝ → ℝ)

/-- A linear problem: conductivities `A`, sources that do not depend on the temperature, heat through the boundary `g + h T`. -/
structure LinearProblem : Prop extends Sound X s sF where
  flux : C72.Linear X.S A
  sources : ∀ src ∈ X.S.sources, ∀ t p T T' g g', src.value t p T g = src.value t p T' g'
  exchange : C75.Newton X g h

/-- Its form: heat conducted, and lost through the boundary. -/
def conductForm (t : ℝ) (w v : X.S.Nodal) : ℝ :=
  C72.integral X.S s X.S.elements (fun ee Q => -∑ j, C72.linearFlux X.S s A w ee Q j * C72.grad X.S s v ee.1 Q j) + C75.cooling X sF h t w v

/-- A temperature that vanishes at the fixed nodes, conducts no heat and loses none is zero. -/
def Anchored (t : ℝ) (fixed : List (Fin X.S.nn)) : Prop := ∀ w, (∀ k ∈ fixed, w k = 0) → conductForm X s sF A h t w w = 0 → w = 0

variable {X s sF A g h}

theorem rateForm_split (t dt : ℝ) (w v : X.S.Nodal) : C75.rateForm X s sF A h t dt w v = storage X s w v + dt * conductForm X s sF A h t w v := by
  unfold C75.rateForm conductForm storage
  have e := C72.integral_lin (S := X.S) (s := s) X.S.elements 1 dt (fun ee Q => C72.capacity X.S ee Q * C72.value X.S s w ee.1 Q * C72.value X.S s v ee.1 Q)
    fun ee Q => -∑ j, C72.linearFlux X.S s A w ee Q j * C72.grad X.S s v ee.1 Q j
  rw [one_mul] at e
  rw [mul_add, ← add_assoc, ← e]
  congr 1
  exact C72.integral_congr fun ee _ Q _ => by ring

/-- Its tangents. -/
theorem slopes_eq (hp : LinearProblem X s sF A g h) {D : Slopes d} {t : ℝ} {u : X.S.Nodal} (hD : Tangent X s sF D t u) (w v : X.S.Nodal) :
    conduction X s D u w v - feedback X s D t u w v + release X sF D t u w v = conductForm X s sF A h t w v := by
  have e1 : conduction X s D u w v = C72.integral X.S s X.S.elements fun ee Q => -∑ j, C72.linearFlux X.S s A w ee Q j * C72.grad X.S s v ee.1 Q j := by
    refine C72.integral_congr fun ee hee Q hQ => ?_
    dsimp only
    congr 1
    refine sum_congr rfl fun m _ => ?_
    congr 1
    have hu := ((hD.flux ee hee Q hQ).2 m).unique ((conducts_linear (hp.flux.flux (ee.2 * X.S.E.npts + Q)) _ _).2 m)
    have := congrFun hu (C72.value X.S s w ee.1 Q, C72.grad X.S s w ee.1 Q)
    refine this.trans ?_
    unfold C72.linearFlux
    simp [sum_neg_distrib]
  have e2 : feedback X s D t u w v = 0 := by
    unfold feedback
    refine List.sum_eq_zero fun x hx => ?_
    obtain ⟨src, hs, rfl⟩ := List.mem_map.1 hx
    refine (C72.integral_congr fun ee hee Q hQ => ?_).trans (C72.integral_zero src.elements)
    dsimp only
    have hu := (hD.source src hs ee hee Q hQ).unique ((Diff.const (src.value t (ee.2 * X.S.E.npts + Q) 0 0) _).congr (fun z => hp.sources src hs _ _ _ _ _ _) fun _ => rfl)
    have := congrFun hu (C72.value X.S s w ee.1 Q, C72.grad X.S s w ee.1 Q)
    rw [show _ + _ = (0 : ℝ) from this, zero_mul]
  have e3 : release X sF D t u w v = C75.cooling X sF h t w v := by
    unfold release C75.cooling
    congr 1
    refine List.map_congr_left fun l hl => C75.integral_congr fun ee hee Q hQ => ?_
    dsimp only
    have hd := hD.exchange l hl ee hee Q hQ
    dsimp only at hd
    set a := C75.area d (C75.tangents X.F sF X.S.pos ee.1 Q)
    set x := C75.place X.F sF X.S.pos ee.1 Q
    have hu := hd.unique ((Diff.const_add (g l x ((C75.size a)⁻¹ • a) t) (Diff.lin (f := fun z : ℝ => h l x ((C75.size a)⁻¹ • a) t * z) (fun a b y z => by
      simp only [smul_eq_mul]; ring) _)).congr (fun z => hp.exchange.affine l hl _ _ _ _) fun _ => rfl)
    have := congrFun hu 1
    simp only [mul_one] at this
    rw [this]
    ring
  rw [e1, e2, e3, sub_zero]
  rfl

/-- The residual is affine in the temperature. -/
theorem static_tested (hp : LinearProblem X s sF A g h) (t : ℝ) (u w a v : X.S.Nodal) :
    ∑ n, (X.residual t (u + w) a n - X.residual t u a n) * v n = conductForm X s sF A h t w v := by
  have hu : (u + w : X.S.Nodal) = fun m => 1 * u m + 1 * w m := by funext m; simp
  rw [hu]
  simp only [sub_mul, sum_sub_distrib]
  rw [C75.C75_heat_weak_form hp.meaning hp.good hp.faces hp.fluxes t _ a v _ (C72.linear_flux hp.flux _),
    C75.C75_heat_weak_form hp.meaning hp.good hp.faces hp.fluxes t u a v _ (C72.linear_flux hp.flux _), C75.outflow_affine hp.exchange]
  have hsup : C72.supplied X.S s t (fun m => 1 * u m + 1 * w m) v = C72.supplied X.S s t u v := by
    unfold C72.supplied
    congr 1
    refine List.map_congr_left fun src hsc => C72.integral_congr fun ee _ Q _ => ?_
    rw [hp.sources src hsc]
  rw [hsup]
  unfold conductForm
  have e := C72.integral_lin (S := X.S) (s := s) X.S.elements 1 1
    (fun ee Q => -∑ j, C72.linearFlux X.S s A w ee Q j * C72.grad X.S s v ee.1 Q j)
    (fun ee Q => C72.capacity X.S ee Q * C72.value X.S s a ee.1 Q * C72.value X.S s v ee.1 Q - ∑ j, C72.linearFlux X.S s A u ee Q j * C72.grad X.S s v ee.1 Q j)
  have e2 : C72.integral X.S s X.S.elements (fun ee Q => C72.capacity X.S ee Q * C72.value X.S s a ee.1 Q * C72.value X.S s v ee.1 Q -
      ∑ j, C72.linearFlux X.S s A (fun m => 1 * u m + 1 * w m) ee Q j * C72.grad X.S s v ee.1 Q j) = _ := (C72.integral_congr fun ee _ Q _ => ?_).trans e
  · rw [e2]
    ring
  · simp only [C75.linearFlux_lin, add_mul, sum_add_distrib, mul_assoc, ← mul_sum]
    ring

theorem of_tested {n : ℕ} {x y : Fin n → ℝ} (h : ∀ v : Fin n → ℝ, ∑ k, x k * v k = ∑ k, y k * v k) : x = y := by
  funext k
  have := h (one k)
  rwa [dot_one, dot_one] at this

/-- **C81, linear problems.**  The Jacobian of the temperature is one matrix at all temperatures, that of the form, and the residual is affine with it; so is that of a step, with
`M + dt K`. -/
theorem C81_linear (hp : LinearProblem X s sF A g h) {D : Slopes d} (hD : ∀ t u, Tangent X s sF D t u) (old old' : Buffer ℝ) :
    (∀ t u w v, ∑ k, mulVec (X.conductMatrix D old t u) w k * v k = conductForm X s sF A h t w v) ∧
    (∀ st k w v, ∑ n, mulVec (X.rateMatrix D old old' st k) w n * v n = storage X s w v + st.dt * conductForm X s sF A h st.time w v) ∧
    (∀ t u w a, X.residual t (u + w) a = X.residual t u a + mulVec (X.conductMatrix D old t u) w) ∧
    ∀ (st : State1 X.S.nn) (k w : X.S.Nodal), X.residual st.time (fun m => 1 * st.u m + st.dt * (k + w) m) (k + w) =
      X.residual st.time (fun m => 1 * st.u m + st.dt * k m) k + mulVec (X.rateMatrix D old old' st k) w := by
  have h1 : ∀ t u w v, ∑ k, mulVec (X.conductMatrix D old t u) w k * v k = conductForm X s sF A h t w v := by
    intro t u w v
    rw [(C81_matrix hp.toSound D old old' t u u w).1, C81_form hp.toSound, slopes_eq hp (hD t u)]
  have h2 : ∀ (st : State1 X.S.nn) (k w v : X.S.Nodal), ∑ n, mulVec (X.rateMatrix D old old' st k) w n * v n = storage X s w v + st.dt * conductForm X s sF A h st.time w v := by
    intro st k w v
    have e : ∀ n, mulVec (X.rateMatrix D old old' st k) w n = mulVec (X.storeMatrix old' k) w n +
        st.dt * mulVec (X.conductMatrix D old st.time fun m => 1 * st.u m + st.dt * k m) w n := by
      intro n
      unfold Elim.mulVec Exchange.rateMatrix
      rw [mul_sum, ← sum_add_distrib]
      exact sum_congr rfl fun m _ => by ring
    simp only [e, add_mul, sum_add_distrib, mul_assoc, ← mul_sum]
    rw [h1, (C81_matrix hp.toSound D old old' st.time k k w).2, C81_store_form hp.toSound]
  refine ⟨h1, h2, fun t u w a => of_tested fun v => ?_, fun st k w => of_tested fun v => ?_⟩
  · simp only [Pi.add_apply, add_mul, sum_add_distrib]
    rw [h1, ← static_tested hp t u w a v]
    simp only [sub_mul, sum_sub_distrib]
    ring
  · have ha := C75.rate_tested hp.meaning hp.good hp.faces hp.fluxes hp.flux hp.sources hp.exchange st.time st.dt st.u (k + w) v
    have hb := C75.rate_tested hp.meaning hp.good hp.faces hp.fluxes hp.flux hp.sources hp.exchange st.time st.dt st.u k v
    have hc := C75.rateForm_lin (X := X) (s := s) (sF := sF) (A := A) (h := h) st.time st.dt 1 1 k w v
    rw [show (fun n => 1 * k n + 1 * w n) = (k + w : X.S.Nodal) by funext n; simp] at hc
    rw [hc] at ha
    simp only [sub_mul, sum_sub_distrib] at ha hb
    have hd := h2 st k w v
    rw [← rateForm_split] at hd
    have : ∑ n, (X.residual st.time (fun m => 1 * st.u m + st.dt * k m) k + mulVec (X.rateMatrix D old old' st k) w) n * v n =
        ∑ n, X.residual st.time (fun m => 1 * st.u m + st.dt * k m) k n * v n + ∑ n, mulVec (X.rateMatrix D old old' st k) w n * v n := by
      simp only [Pi.add_apply, add_mul, sum_add_distrib]
    rw [this, hd]
    linarith

/-- What makes a linear problem dissipative, and the square of the temperature definite. -/
structure Dissipative : Prop where
  volumes : C72.Volumes X.S s X.S.elements
  weights : ∀ Q < X.F.E.npts, 0 ≤ sF.wt Q
  conducts : ∀ p, C49.Dissipates (X.S.material p)
  capacity : ∀ p, 0 ≤ (X.S.material p).capacity
  square : ∀ x : X.S.Nodal, C72.square X.S s x = 0 → x = 0

theorem conductForm_nonneg (hp : LinearProblem X s sF A g h) (hv : Dissipative (X := X) (s := s) (sF := sF)) (t : ℝ) (w : X.S.Nodal) : 0 ≤ conductForm X s sF A h t w w :=
  add_nonneg (C72.dissipation_nonneg hv.volumes hv.conducts (C72.linear_flux hp.flux w)) (C75.cooling_nonneg hv.weights hp.exchange t w)

theorem storage_self (w : X.S.Nodal) : storage X s w w = C72.square X.S s w := C72.integral_congr fun ee _ Q _ => by ring

/-- **C81, definiteness.**  The matrix of a step is positive definite, whatever the step size (not negative). -/
theorem C81_definite (hp : LinearProblem X s sF A g h) (hv : Dissipative (X := X) (s := s) (sF := sF)) {D : Slopes d} (hD : ∀ t u, Tangent X s sF D t u) (old old' : Buffer ℝ)
    (st : State1 X.S.nn) (hdt : 0 ≤ st.dt) (k w : X.S.Nodal) (hw : w ≠ 0) : 0 < ∑ n, mulVec (X.rateMatrix D old old' st k) w n * w n := by
  rw [(C81_linear hp hD old old').2.1, storage_self]
  have h1 : 0 ≤ C72.square X.S s w := C72.integral_nonneg hv.volumes fun ee _ Q _ => mul_nonneg (hv.capacity _) (sq_nonneg _)
  have h2 : C72.square X.S s w ≠ 0 := fun h => hw (hv.square w h)
  have h3 := mul_nonneg hdt (conductForm_nonneg hp hv st.time w)
  have := lt_of_le_of_ne h1 (Ne.symm h2)
  linarith

theorem rate_affine (hp : LinearProblem X s sF A g h) (hv : Dissipative (X := X) (s := s) (sF := sF)) {D : Slopes d} (hD : ∀ t u, Tangent X s sF D t u) (old old' : Buffer ℝ)
    (fixed : List (Fin X.S.nn)) (st : State1 X.S.nn) (hdt : 0 ≤ st.dt) :
    Affine fixed (fun k => X.residual st.time (fun m => 1 * st.u m + st.dt * k m) k) (X.rateMatrix D old old' st) :=
  ⟨fun k w => (C81_linear hp hD old old').2.2.2 st k w, fun k w _ h0 => by
    by_contra hne
    exact (C81_definite hp hv hD old old' st hdt k w hne).ne' h0⟩

/-- The linear solver satisfies the equations of rows with a single one, the rows of eliminated dofs. -/
def Rows {n : ℕ} (linear : Elim.Mat n → Elim.Vec n → Elim.Vec n) : Prop := ∀ J b k, (∀ m, J k m = if k = m then 1 else 0) → linear J b k = b k

/-- **C81, the nonlinear solves of a run.**  With exact linear solves the Newton solver, handed residual and Jacobian of the module, finds the rate in every step: what C72 and
C75 assume of the solver. -/
theorem C81_solves (hp : LinearProblem X s sF A g h) (hv : Dissipative (X := X) (s := s) (sF := sF)) {D : Slopes d} (hD : ∀ t u, Tangent X s sF D t u) (old old' : Buffer ℝ)
    {o : Solver X.S.nn} (hlin : C78.Exact o.linear) (hrows : Rows o.linear) (hnorm : C78.Length o.norm) (ho : Iterates o.newton) (b : BCs X.S.nn) (rep : Newton.Report) :
    C75.SolvesHeat X b (X.rateSolve D old old' o b.allDofs rep) := by
  refine ⟨fun st guess hdt n => ?_, ?_⟩
  · have := (rate_affine hp hv hD old old' b.allDofs st hdt.le).newton hlin hnorm o.newton ho guess 0 rep
    unfold Exchange.rateResidual
    split_ifs with hn
    · rfl
    · exact this.2 n hn
  · have hcor : ∀ (st : State1 X.S.nn) (x : Elim.Vec X.S.nn), ∀ r ∈ C26.Free b.allDofs, o.linear (X.rateJacobian D old old' b.allDofs st x).1 r ∈ C26.Free b.allDofs := by
      intro st x r hr k hk
      rw [hrows _ _ k fun m => ?_]
      · exact hr k hk
      · unfold Exchange.rateJacobian Elim.elim
        dsimp only
        rw [if_pos (Or.inl hk)]
    intro st v i hi
    exact C26.C26_newton (fun k : Elim.Vec X.S.nn => some (X.residual st.time (fun m => 1 * st.u m + st.dt * k m) k)) b.allDofs o.norm
      (fun k r => o.linear (X.rateJacobian D old old' b.allDofs st k).1 r) (hcor st) o.newton v 0 (Submodule.zero_mem _) rep i hi

/-- A steady temperature: the prescribed values, and no residual at the other nodes (`rate` is whatever the module holds as rate). -/
def SteadyAt (X : Exchange d) (fixed : List (Fin X.S.nn)) (g : Fin X.S.nn → ℝ) (t : ℝ) (rate u : X.S.Nodal) : Prop :=
  (∀ k ∈ fixed, u k = g k) ∧ ∀ k ∉ fixed, X.residual t u rate k = 0

theorem static_affine (hp : LinearProblem X s sF A g h) {D : Slopes d} (hD : ∀ t u, Tangent X s sF D t u) (old : Buffer ℝ) (fixed : List (Fin X.S.nn)) (t : ℝ)
    (ha : Anchored X s sF A h t fixed) (rate : X.S.Nodal) : Affine fixed (fun u => X.residual t u rate) (X.conductMatrix D old t) :=
  ⟨fun u w => (C81_linear hp hD old old).2.2.1 t u w rate, fun u w hw h0 => ha w hw (by rw [← (C81_linear hp hD old old).1 t u w w, h0])⟩

/-- **C81, steady temperatures** exist and are unique, and are those with conducted and lost heat in balance with the sources. -/
theorem C81_steady_unique (hp : LinearProblem X s sF A g h) {D : Slopes d} (hD : ∀ t u, Tangent X s sF D t u) (fixed : List (Fin X.S.nn)) (t : ℝ)
    (ha : Anchored X s sF A h t fixed) (rate : X.S.Nodal) (q : Fin X.S.nn → ℝ) : ∃! u, SteadyAt X fixed q t rate u := by
  have haf := static_affine hp hD (fun _ => ⟨0, 0, 0, 0⟩) fixed t ha rate
  obtain ⟨u, hu⟩ := haf.exists q
  exact ⟨u, hu, fun u' hu' => haf.unique hu'.2 hu.2 fun k hk => by rw [hu.1 k hk, hu'.1 k hk]⟩

/-- **C81, a quasi-static step** ends at the steady temperature of the new time and boundary values, from any temperature. -/
theorem C81_steady_step (hp : LinearProblem X s sF A g h) {D : Slopes d} (hD : ∀ t u, Tangent X s sF D t u) (old : Buffer ℝ) {o : Solver X.S.nn} (hlin : C78.Exact o.linear)
    (hnorm : C78.Length o.norm) (ho : Iterates o.newton) {b : BCs X.S.nn} {q : ℝ → Fin X.S.nn → ℝ} (hq : Prescribes b q) (rate : X.S.Nodal) (x : Steady X.S.nn) (dt : ℝ)
    (ha : Anchored X s sF A h (x.time + dt) b.allDofs) :
    SteadyAt X b.allDofs (q (x.time + dt)) (x.time + dt) rate (X.steadyStep D old o b rate x dt).u ∧ (X.steadyStep D old o b rate x dt).time = x.time + dt := by
  obtain ⟨h1, h2⟩ := (static_affine hp hD old b.allDofs (x.time + dt) ha rate).newton hlin hnorm o.newton ho (b.essentials.foldl (fun v bc => bc.setDofs v (x.time + dt)) x.u) x.r x.rep
  refine ⟨⟨fun k hk => ?_, h2⟩, rfl⟩
  refine (h1 k hk).trans ?_
  rw [Ode.eval_foldl b.essentials q hq.1, if_pos ((hq.2 k).1 hk)]

/-- **C81, quasi-static runs.**  After any sequence of steps the temperature is the steady one of the final time; the initial state and the steps in between leave no trace. -/
theorem C81_steady_run (hp : LinearProblem X s sF A g h) {D : Slopes d} (hD : ∀ t u, Tangent X s sF D t u) (old : Buffer ℝ) {o : Solver X.S.nn} (hlin : C78.Exact o.linear)
    (hnorm : C78.Length o.norm) (ho : Iterates o.newton) {b : BCs X.S.nn} {q : ℝ → Fin X.S.nn → ℝ} (hq : Prescribes b q) (rate : X.S.Nodal)
    (ha : ∀ t, Anchored X s sF A h t b.allDofs) (x : Steady X.S.nn) (dts : List ℝ) (hdts : dts ≠ []) :
    SteadyAt X b.allDofs (q (x.time + dts.sum)) (x.time + dts.sum) rate (X.steadyRun D old o b rate x dts).u ∧ (X.steadyRun D old o b rate x dts).time = x.time + dts.sum ∧
    ∀ (y : Steady X.S.nn) (dts' : List ℝ), dts' ≠ [] → y.time + dts'.sum = x.time + dts.sum → (X.steadyRun D old o b rate y dts').u = (X.steadyRun D old o b rate x dts).u := by
  have time : ∀ (x : Steady X.S.nn) (dts : List ℝ), (X.steadyRun D old o b rate x dts).time = x.time + dts.sum := by
    intro x dts
    induction dts generalizing x with
    | nil => simp [Exchange.steadyRun]
    | cons dt dts ih =>
      rw [Exchange.steadyRun, List.foldl_cons]
      refine (ih _).trans ?_
      rw [show (X.steadyStep D old o b rate x dt).time = x.time + dt from rfl, List.sum_cons]
      ring
  have eq : ∀ (x : Steady X.S.nn) (dts : List ℝ), dts ≠ [] → SteadyAt X b.allDofs (q (x.time + dts.sum)) (x.time + dts.sum) rate (X.steadyRun D old o b rate x dts).u := by
    intro x dts hne
    obtain ⟨l, dt, rfl⟩ : ∃ l dt, dts = l ++ [dt] := ⟨dts.dropLast, dts.getLast hne, (List.dropLast_append_getLast hne).symm⟩
    have := (C81_steady_step hp hD old hlin hnorm ho hq rate (X.steadyRun D old o b rate x l) dt (ha _)).1
    rw [time] at this
    rw [List.sum_append, List.sum_singleton, ← add_assoc, Exchange.steadyRun, List.foldl_append, List.foldl_cons, List.foldl_nil]
    exact this
  refine ⟨eq x dts hdts, time x dts, fun y dts' hne he => ?_⟩
  have h1 := eq y dts' hne
  rw [he] at h1
  exact (C81_steady_unique hp hD b.allDofs _ (ha _) rate _).unique h1 (eq x dts hdts)


/-! ### Reading off the mesh that steady temperatures are unique -/

/-- A node whose temperature is determined: a fixed one, one of the same element as a determined one, or one of an element with a cooled face. -/
inductive Reached (X : Exchange d) (sF : Shapes) (h : Flux d → Vec ℝ d.n → Vec ℝ d.n → ℝ → ℝ) (t : ℝ) (fixed : List (Fin X.S.nn)) : Fin X.S.nn → Prop
  | fixed (n : Fin X.S.nn) (hn : n ∈ fixed) : Reached X sF h t fixed n
  | element (e a b : ℕ) (he : e ∈ X.S.elements) (ha : a < X.S.E.ndof) (hb : b < X.S.E.ndof) (hr : Reached X sF h t fixed (X.S.conn e b)) : Reached X sF h t fixed (X.S.conn e a)
  | cooled (l : Flux d) (ee : ℕ × ℕ) (Q e a : ℕ) (hl : l ∈ X.fluxes) (hee : ee ∈ l.elements.zipIdx) (hQ : Q < X.F.E.npts)
      (hh : 0 < h l (C75.place X.F sF X.S.pos ee.1 Q) ((C75.size (C75.area d (C75.tangents X.F sF X.S.pos ee.1 Q)))⁻¹ • C75.area d (C75.tangents X.F sF X.S.pos ee.1 Q)) t)
      (he : e ∈ X.S.elements) (hface : ∀ c < X.F.E.ndof, ∃ b < X.S.E.ndof, X.F.conn ee.1 c = X.S.conn e b) (ha : a < X.S.E.ndof) : Reached X sF h t fixed (X.S.conn e a)

variable (X s sF A) in
/-- Positive volumes, areas and conductivities; only constants have no gradient in an element; shape functions of faces sum to one. -/
structure Solid : Prop where
  volume : ∀ e ∈ X.S.elements, ∀ Q < X.S.E.npts, 0 < s.wt Q * (C72.jac X.S s e Q).det
  area : ∀ l ∈ X.fluxes, ∀ e ∈ l.elements, ∀ Q < X.F.E.npts, 0 < sF.wt Q * C75.size (C75.area d (C75.tangents X.F sF X.S.pos e Q))
  weights : ∀ Q < X.F.E.npts, 0 ≤ sF.wt Q
  conducts : ∀ p (g : Fin d.n → ℝ), g ≠ 0 → 0 < ∑ i, ∑ j, g i * A p i j * g j
  constants : ∀ z : ℕ → ℝ, (∀ Q < X.S.E.npts, ∀ k : Fin d.n, ∑ a ∈ range X.S.E.ndof, z a * s.dphi Q a k = 0) → ∀ a < X.S.E.ndof, ∀ b < X.S.E.ndof, z a = z b
  unity : ∀ Q < X.F.E.npts, ∑ c ∈ range X.F.E.ndof, sF.phi Q c = 1

/-- **C81, uniqueness of steady temperatures from the mesh.**  If every node is connected to a fixed one or to a cooled face, temperatures that vanish at the fixed nodes and
neither conduct nor lose heat are zero. -/
theorem C81_anchored (hN : C75.Newton X g h) (hs : Solid X s sF A) (t : ℝ) (fixed : List (Fin X.S.nn)) (hr : ∀ n, Reached X sF h t fixed n) :
    Anchored X s sF A h t fixed := by
  intro w hw h0
  have hq : ∀ ee Q, (-∑ j, C72.linearFlux X.S s A w ee Q j * C72.grad X.S s w ee.1 Q j) =
      ∑ i, ∑ j, C72.grad X.S s w ee.1 Q i * A (ee.2 * X.S.E.npts + Q) i j * C72.grad X.S s w ee.1 Q j := by
    intro ee Q
    unfold C72.linearFlux
    rw [← sum_neg_distrib]
    refine sum_congr rfl fun i _ => ?_
    rw [neg_mul, neg_neg, sum_mul]
    exact sum_congr rfl fun j _ => by ring
  have hpos : ∀ p (g : Fin d.n → ℝ), 0 ≤ ∑ i, ∑ j, g i * A p i j * g j := by
    intro p g
    by_cases hg : g = 0
    · rw [hg]; simp
    · exact (hs.conducts p g hg).le
  have hc := C75.cooling_nonneg hs.weights hN t w
  have hd : 0 ≤ C72.integral X.S s X.S.elements (fun ee Q => -∑ j, C72.linearFlux X.S s A w ee Q j * C72.grad X.S s w ee.1 Q j) :=
    C72.integral_nonneg (fun e he Q hQ => (hs.volume e he Q hQ).le) fun ee _ Q _ => by rw [hq]; exact hpos _ _
  have h0' : _ + _ = (0 : ℝ) := h0
  have hd0 : C72.integral X.S s X.S.elements (fun ee Q => -∑ j, C72.linearFlux X.S s A w ee Q j * C72.grad X.S s w ee.1 Q j) = 0 := by linarith
  have hc0 : C75.cooling X sF h t w w = 0 := by linarith
  -- no gradients
  have hgrad : ∀ e ∈ X.S.elements, ∀ Q < X.S.E.npts, C72.grad X.S s w e Q = 0 := by
    intro e he Q hQ
    obtain ⟨i, hi, hie⟩ := List.mem_iff_getElem.1 he
    have hee : (e, i) ∈ X.S.elements.zipIdx := by
      rw [List.mem_zipIdx_iff_getElem?]
      simp [hi, hie]
    have hn : ∀ ee ∈ X.S.elements.zipIdx, ∀ Q ∈ range X.S.E.npts, 0 ≤ s.wt Q * ((C72.jac X.S s ee.1 Q).det *
        (-∑ j, C72.linearFlux X.S s A w ee Q j * C72.grad X.S s w ee.1 Q j)) := by
      intro ee hee Q hQ
      rw [← mul_assoc, hq]
      exact mul_nonneg (hs.volume _ (C71.mem_zipIdx_fst hee) Q (mem_range.1 hQ)).le (hpos _ _)
    have h1 := List.all_zero_of_le_zero_le_of_sum_eq_zero (fun x hx => by
      obtain ⟨ee, hee, rfl⟩ := List.mem_map.1 hx
      exact sum_nonneg (hn ee hee)) hd0 (List.mem_map_of_mem hee)
    have h2 := (sum_eq_zero_iff_of_nonneg (hn _ hee)).1 h1 Q (mem_range.2 hQ)
    rw [← mul_assoc, hq] at h2
    by_contra hne
    exact (mul_pos (hs.volume e he Q hQ) (hs.conducts (i * X.S.E.npts + Q) _ hne)).ne' h2
  have hcon : ∀ e ∈ X.S.elements, ∀ a < X.S.E.ndof, ∀ b < X.S.E.ndof, w (X.S.conn e a) = w (X.S.conn e b) := by
    intro e he
    refine hs.constants (fun a => w (X.S.conn e a)) fun Q hQ k => ?_
    have hg := hgrad e he Q hQ
    have hdet : (C72.jac X.S s e Q).det ≠ 0 := fun h => (hs.volume e he Q hQ).ne' (by rw [h, mul_zero])
    have hu : IsUnit (C72.jac X.S s e Q).det := isUnit_iff_ne_zero.2 hdet
    have hv : Matrix.vecMul (C72.parGrad X.S s w e Q) (C72.jac X.S s e Q)⁻¹ = 0 := hg
    have : Matrix.vecMul (Matrix.vecMul (C72.parGrad X.S s w e Q) (C72.jac X.S s e Q)⁻¹) (C72.jac X.S s e Q) = 0 := by rw [hv, Matrix.zero_vecMul]
    rw [Matrix.vecMul_vecMul, Matrix.nonsing_inv_mul _ hu, Matrix.vecMul_one] at this
    exact congrFun this k
  -- cooled faces are at zero
  have hcool : ∀ l ∈ X.fluxes, ∀ ee ∈ l.elements.zipIdx, ∀ Q < X.F.E.npts,
      0 < h l (C75.place X.F sF X.S.pos ee.1 Q) ((C75.size (C75.area d (C75.tangents X.F sF X.S.pos ee.1 Q)))⁻¹ • C75.area d (C75.tangents X.F sF X.S.pos ee.1 Q)) t →
      C75.along X.F sF w ee.1 Q = 0 := by
    intro l hl ee hee Q hQ hh
    have hn : ∀ l ∈ X.fluxes, ∀ ee ∈ l.elements.zipIdx, ∀ Q ∈ range X.F.E.npts, 0 ≤ sF.wt Q * (C75.size (C75.area d (C75.tangents X.F sF X.S.pos ee.1 Q)) *
        (h l (C75.place X.F sF X.S.pos ee.1 Q) ((C75.size (C75.area d (C75.tangents X.F sF X.S.pos ee.1 Q)))⁻¹ • C75.area d (C75.tangents X.F sF X.S.pos ee.1 Q)) t *
          C75.along X.F sF w ee.1 Q) * C75.along X.F sF w ee.1 Q) := by
      intro l hl ee hee Q hQ
      rw [mul_assoc, mul_assoc, ← mul_assoc]
      exact mul_nonneg (hs.area l hl _ (C71.mem_zipIdx_fst hee) Q (mem_range.1 hQ)).le (mul_nonneg (hN.nonneg l hl _ _ _) (mul_self_nonneg _))
    have h1 := List.all_zero_of_le_zero_le_of_sum_eq_zero (fun x hx => by
      obtain ⟨l, hl, rfl⟩ := List.mem_map.1 hx
      refine List.sum_nonneg fun x hx => ?_
      obtain ⟨ee, hee, rfl⟩ := List.mem_map.1 hx
      exact sum_nonneg (hn l hl ee hee)) hc0 (List.mem_map_of_mem hl)
    have h2 := List.all_zero_of_le_zero_le_of_sum_eq_zero (fun x hx => by
      obtain ⟨ee, hee, rfl⟩ := List.mem_map.1 hx
      exact sum_nonneg (hn l hl ee hee)) h1 (List.mem_map_of_mem hee)
    have h3 := (sum_eq_zero_iff_of_nonneg (hn l hl ee hee)).1 h2 Q (mem_range.2 hQ)
    rw [mul_assoc, mul_assoc, ← mul_assoc] at h3
    have h4 := (mul_eq_zero.1 h3).resolve_left (hs.area l hl _ (C71.mem_zipIdx_fst hee) Q hQ).ne'
    exact mul_self_eq_zero.1 ((mul_eq_zero.1 h4).resolve_left hh.ne')
  funext n
  change w n = 0
  induction hr n with
  | fixed n hn => exact hw n hn
  | element e a b he ha hb _ ih => rw [hcon e he a ha b hb, ih]
  | cooled l ee Q e a hl hee hQ hh he hface ha =>
    have h1 := hcool l hl ee hee Q hQ hh
    unfold C75.along at h1
    rw [sum_congr rfl fun c hc => by
      obtain ⟨b, hb, hcb⟩ := hface c (mem_range.1 hc)
      rw [hcb, hcon e he b hb a ha], ← mul_sum, hs.unity Q hQ, mul_one] at h1
    exact h1

end Linear

/-! ## Examples: the square of C72 -/

section Examples

/-- Conductivity `2 + T`, a source that grows with temperature and gradient, radiation through two sides. -/
def exHotMaterial : Conductors.Material 2 := (Conductors.temperatureDependent 2 1 3 2 1).getD ⟨0, fun _ _ => none⟩
theorem ex_hot_material : Conductors.temperatureDependent 2 1 3 2 1 = some exHotMaterial := by
  unfold exHotMaterial Conductors.temperatureDependent
  norm_num
def exHotSource : Source .two := ⟨[1, 3], fun t _ T g => t * T ^ 2 + g (0 : Fin 2)⟩
def exRadiation : Flux .two := ⟨[0, 2], fun x _ _ T => x (0 : Fin 2) * T ^ 4⟩
def exHot : Exchange .two := ⟨{ C72.exHeat [exHotSource] with material := fun _ => exHotMaterial }, C75.exFaces, [exRadiation]⟩

def exHotSlopes : Slopes .two where
  fluxT _ _ g := -((1 : ℝ) • g)
  fluxG _ T _ := -((2 + 1 * T) • (1 : M 2))
  sourceT _ t _ T _ := t * (2 * T)
  sourceG _ _ _ _ _ := fun i : Fin 2 => if i = 0 then 1 else 0
  exchange _ x _ _ T := x (0 : Fin 2) * (4 * T ^ 3)

theorem ex_hot_sound : Sound exHot C72.exShapes C75.exSF := by
  refine ⟨⟨(C51.C51_simplex C72.tri3).1, (C51.C51_simplex C72.tri3).2, (C51.C51_simplex C72.tri3).1, rfl⟩, ⟨(C72.ex_good [] (by simp)).1, fun src hsrc => ?_⟩, C75.ex_faces, fun l hl => ?_⟩
  · rw [List.mem_singleton.1 (show src ∈ [exHotSource] from hsrc)]
    exact (C72.ex_good [C72.exSource] (by simp)).2 C72.exSource (by simp [C72.exHeat])
  · rw [List.mem_singleton.1 (show l ∈ [exRadiation] from hl)]
    exact C75.ex_faces_good _ (by simp [exRadiation])

/-- The tangents are right at every temperature above -2. -/
theorem ex_hot_tangent (t : ℝ) (u : Fin 5 → ℝ) (hu : ∀ n, -2 < u n) : Tangent exHot C72.exShapes C75.exSF exHotSlopes t u := by
  have hval : ∀ e Q, Q < 3 → -2 < C72.value (C72.exHeat []) C72.exShapes u e Q := by
    intro e Q hQ
    have h3 : (C72.exHeat []).E.ndof = 3 := rfl
    unfold C72.value
    rw [h3]
    have h0 := hu (C71.exConn e 0)
    have h1 := hu (C71.exConn e 1)
    have h2 := hu (C71.exConn e 2)
    change -2 < ∑ a ∈ range 3, u (C71.exConn e a) * C72.exShapes.phi Q a
    rw [sum_range_succ, sum_range_succ, sum_range_succ, sum_range_zero]
    interval_cases Q <;> simp [C72.exShapes, C72.tri3] <;> linarith
  refine ⟨fun ee hee Q hQ => ?_, fun src hsrc ee hee Q hQ => ?_, fun l hl ee hee Q hQ => ?_⟩
  · exact (C81_conductors 2 1 3 exHotMaterial _ _).2.2 2 1 ex_hot_material (by
      have := hval ee.1 Q hQ
      rw [one_mul]
      exact neg_lt_iff_pos_add'.1 this)
  · rw [List.mem_singleton.1 (show src ∈ [exHotSource] from hsrc)]
    dsimp only
    generalize C72.value exHot.S C72.exShapes u ee.1 Q = T
    generalize hG : C72.grad exHot.S C72.exShapes u ee.1 Q = G
    have h1 : Diff (fun z : ℝ × (Fin 2 → ℝ) => z.1) (fun z => z.1) (T, G) := Diff.lin (fun a b y z => by simp) _
    have h2 : Diff (fun z : ℝ × (Fin 2 → ℝ) => z.2 0) (fun z => z.2 0) (T, G) := Diff.lin (fun a b y z => by simp) _
    refine (((h1.mul h1).const_mul t).add h2).congr (fun z => ?_) fun z => ?_
    · change t * z.1 ^ 2 + z.2 0 = _
      ring
    · change t * (2 * T) * z.1 + ∑ n : Fin 2, (if n = 0 then (1 : ℝ) else 0) * z.2 n = _
      rw [Fin.sum_univ_two]
      simp
      ring
  · rw [List.mem_singleton.1 (show l ∈ [exRadiation] from hl)]
    dsimp only
    generalize C75.along exHot.F C75.exSF u ee.1 Q = T
    generalize hx : C75.place exHot.F C75.exSF exHot.S.pos ee.1 Q = x
    have h1 : Diff (fun z : ℝ => z) (fun z => z) T := Diff.lin (fun a b y z => by simp) _
    refine (((h1.mul h1).mul (h1.mul h1)).const_mul (x (0 : Fin 2))).congr (fun z => ?_) fun z => ?_
    · change x (0 : Fin 2) * z ^ 4 = _
      ring
    · change x (0 : Fin 2) * (4 * T ^ 3) * z = _
      ring

example (t : ℝ) (u a : Fin 5 → ℝ) (hu : ∀ n, -2 < u n) (old : Buffer ℝ) : ∃ L : (Fin 5 → ℝ) →L[ℝ] (Fin 5 → ℝ),
    (∀ w, L w = Elim.mulVec (exHot.conductMatrix exHotSlopes old t u) w) ∧ HasFDerivAt (fun w : Fin 5 → ℝ => exHot.residual t w a) L u :=
  C81_derivative ex_hot_sound (ex_hot_tangent t u hu) a old

/-- A direct solver and the sum of absolute values as norm. -/
def exSolver (o : Newton.Options) : Solver 5 where
  linear J b := by classical exact if h : ∃ x, Elim.mulVec J x = b then h.choose else b
  norm r := .fin (∑ i, |r i|)
  newton := o

theorem ex_exact (o : Newton.Options) : C78.Exact (exSolver o).linear := by
  intro J b h
  unfold exSolver
  dsimp only
  rw [dif_pos h]
  exact h.choose_spec

theorem ex_rows (o : Newton.Options) : Rows (exSolver o).linear := by
  intro J b k hk
  unfold exSolver
  dsimp only
  split_ifs with h
  · have e : ∑ m, J k m * h.choose m = b k := congrFun h.choose_spec k
    simp only [hk] at e
    simpa using e
  · rfl

theorem ex_length (o : Newton.Options) : C78.Length (exSolver o).norm := by
  intro r
  refine ⟨∑ i, |r i|, rfl, sum_nonneg fun i _ => abs_nonneg _, ?_⟩
  rw [sum_eq_zero_iff_of_nonneg fun i _ => abs_nonneg _]
  exact ⟨fun h => funext fun i => abs_eq_zero.1 (h i (mem_univ i)), fun h i _ => by rw [h]; simp⟩

/-- The linear problem of C75: conductivity 2, cooling through two sides, with or without the source of C72. -/
def exLinear (sources : List (Source .two)) : Exchange .two := ⟨C72.exHeat sources, C75.exFaces, [C75.exCooling]⟩
def exSlopes : Slopes .two := ⟨fun _ _ _ => 0, fun _ _ _ => -((2 : ℝ) • (1 : M 2)), fun _ _ _ _ _ => 0, fun _ _ _ _ _ => 0, fun _ x _ _ _ => 1 + x (0 : Fin 2) ^ 2⟩

variable (sources : List (Source .two))

theorem ex_linear (hs : ∀ src ∈ sources, src = C72.exSource) : LinearProblem (exLinear sources) C72.exShapes C75.exSF (fun _ => (2 : ℝ) • (1 : M 2)) (fun _ _ _ _ => 0)
    fun _ x _ _ => 1 + x (0 : Fin 2) ^ 2 := by
  refine ⟨⟨C72.ex_meaning sources, C72.ex_good sources hs, C75.ex_faces, fun l hl => ?_⟩, C72.ex_linear sources, fun src hsrc t p T T' g g' => ?_, ⟨fun l hl x n t T => ?_, fun _ _ x _ _ => by positivity⟩⟩
  · rw [List.mem_singleton.1 (show l ∈ [C75.exCooling] from hl)]
    exact C75.ex_faces_good _ (by simp [C75.exCooling])
  · rw [hs src hsrc]
    rfl
  · rw [List.mem_singleton.1 (show l ∈ [C75.exCooling] from hl), zero_add]
    rfl

theorem ex_tangent (hs : ∀ src ∈ sources, src = C72.exSource) (t : ℝ) (u : Fin 5 → ℝ) : Tangent (exLinear sources) C72.exShapes C75.exSF exSlopes t u := by
  refine ⟨fun ee _ Q _ => (C81_conductors 2 1 3 C72.exMaterial _ _).1 2 C72.ex_material, fun src hsrc ee hee Q hQ => ?_, fun l hl ee hee Q hQ => ?_⟩
  · rw [hs src hsrc]
    refine (Diff.const (t ^ 2) _).congr (fun _ => rfl) fun z => ?_
    simp [exSlopes]
  · rw [List.mem_singleton.1 (show l ∈ [C75.exCooling] from hl)]
    exact Diff.lin (f := fun z : ℝ => (1 + C75.place (d := .two) C75.exFaces C75.exSF C71.exPos ee.1 Q (0 : Fin 2) ^ 2) * z) (fun a b y z => by simp only [smul_eq_mul]; ring) _

theorem ex_dissipative : Dissipative (X := exLinear sources) (s := C72.exShapes) (sF := C75.exSF) := by
  obtain ⟨-, h2, h3, h4, -⟩ := C72.C72_conductors 2 1 3 2 _ C72.ex_material
  exact ⟨C72.ex_volumes sources, fun _ _ => by simp [C75.exSF, C75.exRule], fun _ => h3, fun _ => h4, C72.ex_definite sources⟩

/-- Runs with this solver never gain heat content, in the square norm. -/
example (o : Newton.Options) (ho : Iterates o) (old old' : Buffer ℝ) (rep : Newton.Report) (dts : List ℝ) (hdt : ∀ dt ∈ dts, 0 < dt) (r : Ode.Run1 5) :
    C72.square (C72.exHeat []) C72.exShapes (C21.run C72.exWalls .direct ((exLinear []).rateSolve exSlopes old old' (exSolver o) C72.exWalls.allDofs rep) dts r).x ≤
      C72.square (C72.exHeat []) C72.exShapes r.x := by
  obtain ⟨-, h2, h3, h4, -⟩ := C72.C72_conductors 2 1 3 2 _ C72.ex_material
  have hl := ex_linear [] (by simp)
  have hs := C81_solves hl (ex_dissipative []) (ex_tangent [] (by simp)) old old' (o := exSolver o) (ex_exact o) (ex_rows o) (ex_length o) ho C72.exWalls rep
  refine C75.C75_heat_stability (X := exLinear []) hl.meaning hl.good rfl (C72.ex_volumes []) (fun _ => h2) (fun _ => h3) (fun _ => h4) hl.faces hl.fluxes
    (ex_dissipative []).weights ?_ hs ⟨?_, ?_⟩ dts hdt r
  · intro l hl x n t T
    rw [List.mem_singleton.1 (show l ∈ [C75.exCooling] from hl)]
    change 0 ≤ (1 + x (0 : Fin 2) ^ 2) * T * T
    rw [mul_assoc]
    exact mul_nonneg (by positivity) (mul_self_nonneg T)
  · intro bc hbc i hi t
    rw [List.mem_singleton.1 (show bc ∈ [_] from hbc)]
  · change ∀ i : Fin 5, i ∈ C72.exWalls.allDofs ↔ ∃ bc ∈ C72.exWalls.essentials, i ∈ bc.dofs
    simp [C72.exWalls]

theorem size_pos {n : ℕ} {a : Fin n → ℝ} (h : a ≠ 0) : 0 < C75.size a := by
  refine lt_of_le_of_ne (Real.sqrt_nonneg _) fun h0 => h ?_
  have h1 := (Real.sqrt_eq_zero (sum_nonneg fun i _ => by positivity)).1 h0.symm
  funext i
  exact pow_eq_zero_iff two_ne_zero |>.1 ((sum_eq_zero_iff_of_nonneg fun i _ => by positivity).1 h1 i (mem_univ i))

theorem ex_solid : Solid (exLinear sources) C72.exShapes C75.exSF fun _ => (2 : ℝ) • (1 : M 2) := by
  refine ⟨fun e he Q hQ => ?_, fun l hl e he Q hQ => ?_, (ex_dissipative []).weights, fun p g hg => ?_, fun z hz => ?_, fun Q hQ => (C75.ex_faces_unity Q hQ).1⟩
  · have he : e = 0 ∨ e = 1 ∨ e = 2 ∨ e = 3 := by simpa [exLinear, C72.exHeat] using he
    exact mul_pos (by simp [C72.exShapes, C72.tri3]) (C72.ex_det sources he hQ)
  · have := (ex_linear [] (by simp)).fluxes l hl e he
    exact mul_pos (by simp [C75.exSF, C75.exRule]) (size_pos (this.2 Q hQ))
  · change (Fin 2 → ℝ) at g
    change 0 < ∑ i : Fin 2, ∑ j : Fin 2, g i * ((2 : ℝ) • (1 : M 2)) i j * g j
    have : g 0 ≠ 0 ∨ g 1 ≠ 0 := by
      by_contra hc
      push Not at hc
      exact hg (funext fun i : Fin 2 => by fin_cases i; exacts [hc.1, hc.2])
    simp only [Fin.sum_univ_two, Matrix.smul_apply, Matrix.one_apply, smul_eq_mul]
    norm_num
    rcases this with h | h
    · have := sq_pos_of_ne_zero h; nlinarith [sq_nonneg (g 1)]
    · have := sq_pos_of_ne_zero h; nlinarith [sq_nonneg (g 0)]
  · have h0 := hz 0 (by change 0 < 3; norm_num) (0 : Fin 2)
    have h1 := hz 0 (by change 0 < 3; norm_num) (1 : Fin 2)
    change ∑ a ∈ range 3, z a * C72.exShapes.dphi 0 a _ = 0 at h0 h1
    rw [sum_range_succ, sum_range_succ, sum_range_succ, sum_range_zero] at h0 h1
    simp [C72.exShapes, C72.tri3] at h0 h1
    intro a ha b hb
    have ha : a < 3 := ha
    have hb : b < 3 := hb
    interval_cases a <;> interval_cases b <;> linarith

theorem ex_reached (t : ℝ) (n : Fin 5) : Reached (exLinear sources) C75.exSF (fun _ x _ _ => 1 + x (0 : Fin 2) ^ 2) t [] n := by
  have step : ∀ e < 4, ∀ a < 3, ∀ b < 3, Reached (exLinear sources) C75.exSF (fun _ x _ _ => 1 + x (0 : Fin 2) ^ 2) t [] (C71.exConn e b) →
      Reached (exLinear sources) C75.exSF (fun _ x _ _ => 1 + x (0 : Fin 2) ^ 2) t [] (C71.exConn e a) := by
    intro e he a ha b hb hr
    refine Reached.element (X := exLinear sources) e a b ?_ ha hb hr
    change e ∈ [0, 1, 2, 3]
    interval_cases e <;> simp
  have h4 : Reached (exLinear sources) C75.exSF (fun _ x _ _ => 1 + x (0 : Fin 2) ^ 2) t [] (4 : Fin 5) :=
    Reached.cooled (X := exLinear sources) C75.exCooling (0, 0) 0 0 2 (by simp [exLinear]) (by simp [C75.exCooling, List.zipIdx]) (by change 0 < 1; norm_num) (by positivity)
      (by change 0 ∈ [0, 1, 2, 3]; simp) (fun c hc => ⟨c, by have : c < 2 := hc; change c < 3; omega, by
        have : c < 2 := hc
        interval_cases c <;> rfl⟩) (by change 2 < 3; norm_num)
  fin_cases n
  exacts [step 0 (by norm_num) 0 (by norm_num) 2 (by norm_num) h4, step 1 (by norm_num) 0 (by norm_num) 2 (by norm_num) h4,
    step 2 (by norm_num) 0 (by norm_num) 2 (by norm_num) h4, step 3 (by norm_num) 0 (by norm_num) 2 (by norm_num) h4, h4]

/-- Quasi-static runs without fixed nodes: the heat of the source leaves through the cooled sides. -/
example (o : Newton.Options) (ho : Iterates o) (old : Buffer ℝ) (x : Steady 5) (dts : List ℝ) (h : dts ≠ []) :
    SteadyAt (exLinear [C72.exSource]) [] (fun _ => 0) (x.time + dts.sum) 0 ((exLinear [C72.exSource]).steadyRun exSlopes old (exSolver o) ⟨[], []⟩ 0 x dts).u :=
  (C81_steady_run (ex_linear [C72.exSource] (by simp)) (ex_tangent _ (by simp)) old (ex_exact o) (ex_length o) ho (b := ⟨[], []⟩) (q := fun _ _ => 0) ⟨by simp, by simp⟩ 0
    (fun t => C81_anchored (ex_linear [C72.exSource] (by simp)).exchange (ex_solid _) t [] (ex_reached _ t)) x dts h).1

/-- Options that qualify. -/
example (o : Newton.Options) : Iterates { o with maxIter := 20, minIter := 1 } := ⟨by norm_num, Or.inl (by norm_num)⟩

end Examples

end Serac.C81
