import Verif.Model.SolidTangent
import Verif.Proofs.Derivative
import Verif.Props.C75
import Verif.Props.C26
import Mathlib.Analysis.Calculus.FDeriv.Symmetric
import Mathlib.Analysis.SpecialFunctions.Log.Deriv
/-!
# C77: the assembled Jacobian of solid mechanics is the derivative of its residual
-/

noncomputable section
namespace Serac.C77
open Serac.Tensor Serac.Transform Serac.Kernels Serac.Solid Serac.Loads Serac.Piola Serac.Deriv Finset
open Serac.C71 (M Shapes)
open scoped Matrix

/-! ## Assembled kernels -/

section Generic

theorem idx_lt {c ndof k : ℕ} (i : Fin c) (hk : k < ndof) : (i : ℕ) * ndof + k < c * ndof := by
  have := Nat.mul_le_mul_right ndof (Nat.succ_le_of_lt i.2)
  rw [Nat.succ_mul] at this
  omega

/-- A vector of elements given by sources and fluxes at points, tested with a nodal field. -/
theorem form_tested {nn c ndof ne npts dim : ℕ} (conn : ℕ → ℕ → Fin nn) (wt : ℕ → ℝ) (phi : ℕ → ℕ → ℝ) (dphi : ℕ → ℕ → ℕ → ℝ) {l : List ℕ} (hl : ∀ e ∈ l, e < ne)
    (r : ℕ → ℝ) (src : ℕ × ℕ → ℕ → Fin c → ℝ) (flx : ℕ × ℕ → ℕ → Fin c → Fin dim → ℝ)
    (h : ∀ e, ∀ k < ndof, ∀ i : Fin c, r (e * (c * ndof) + (i * ndof + k)) = (l.zipIdx.map fun ee => if ee.1 = e then
      ∑ Q ∈ range npts, wt Q * (src ee Q i * phi Q k + ∑ j : Fin dim, flx ee Q i j * dphi Q k j) else 0).sum) (v : Fin nn → Vec ℝ c) :
    ∑ n, ∑ i, scatterE ndof ne conn r n i * v n i = (l.zipIdx.map fun ee => ∑ Q ∈ range npts, wt Q *
      ((∑ i, src ee Q i * ∑ a ∈ range ndof, v (conn ee.1 a) i * phi Q a) +
        ∑ i, ∑ j : Fin dim, flx ee Q i j * ∑ a ∈ range ndof, v (conn ee.1 a) i * dphi Q a j)).sum := by
  rw [C71.scatter_dot]
  have : ∀ e ∈ range ne, ∑ k ∈ range ndof, ∑ i : Fin c, r (e * (c * ndof) + (i * ndof + k)) * v (conn e k) i =
      (l.zipIdx.map fun ee => if ee.1 = e then ∑ Q ∈ range npts, wt Q *
      ((∑ i, src ee Q i * ∑ a ∈ range ndof, v (conn ee.1 a) i * phi Q a) +
        ∑ i, ∑ j : Fin dim, flx ee Q i j * ∑ a ∈ range ndof, v (conn ee.1 a) i * dphi Q a j) else 0).sum := by
    intro e _
    have : ∀ k ∈ range ndof, ∑ i : Fin c, r (e * (c * ndof) + (i * ndof + k)) * v (conn e k) i =
        (l.zipIdx.map fun ee => if ee.1 = e then ∑ i : Fin c, (∑ Q ∈ range npts, wt Q *
          (src ee Q i * phi Q k + ∑ j : Fin dim, flx ee Q i j * dphi Q k j)) * v (conn e k) i else 0).sum := by
      intro k hk
      simp only [h e k (mem_range.1 hk)]
      generalize l.zipIdx = L
      induction L with
      | nil => simp
      | cons a l ih =>
        simp only [List.map_cons, List.sum_cons, add_mul, sum_add_distrib, ih]
        congr 1
        split_ifs <;> simp
    rw [sum_congr rfl this, C71.list_sum_comm]
    congr 1
    refine List.map_congr_left fun ee _ => ?_
    split_ifs with he
    · simp only [sum_mul]
      rw [sum_congr rfl fun k _ => sum_comm, sum_comm]
      refine sum_congr rfl fun Q _ => ?_
      simp only [mul_sum, mul_add, add_mul, sum_add_distrib]
      rw [he]
      congr 1
      · rw [sum_comm]
        exact sum_congr rfl fun i _ => sum_congr rfl fun k _ => by ring
      · rw [sum_comm]
        refine sum_congr rfl fun i _ => ?_
        simp only [sum_mul]
        rw [sum_comm]
        exact sum_congr rfl fun l _ => sum_congr rfl fun k _ => by ring
    · simp
  rw [sum_congr rfl this, C71.list_sum_comm]
  congr 1
  refine List.map_congr_left fun ee hee => ?_
  rw [sum_ite_eq, if_pos (mem_range.2 (hl _ (C71.mem_zipIdx_fst hee)))]

/-- The assembled matrix of the element matrices times a vector is the assembled action. -/
theorem assemble_mul {E : Elem ℝ} {phi dphi wt} (h : C51.Test E phi dphi wt) (h' : C51.Trial E phi dphi) {c : ℕ} (hc : 0 < c) (hd : 0 < E.dim) (z : Shape) (D : Buffer ℝ)
    {nn ne : ℕ} (conn : ℕ → ℕ → Fin nn) (elements : List ℕ) (v : Fin nn → Vec ℝ c) (n : Fin nn) (i : Fin c) :
    scatterE E.ndof ne conn (actionKernel E E c c z D elements (gatherE E.ndof conn v) fun _ => 0) n i =
      ∑ m, ∑ j, assembleE E.ndof ne conn (gradientKernel E E c c z D elements fun _ => 0) (n, i) (m, j) * v m j := by
  unfold scatterE assembleE
  have hm : ∀ e, ∀ a ∈ range E.ndof, actionKernel E E c c z D elements (gatherE E.ndof conn v) (fun _ => 0) (e * (c * E.ndof) + (i * E.ndof + a)) =
      ∑ b ∈ range E.ndof, ∑ j : Fin c, gradientKernel E E c c z D elements (fun _ => 0) ((e * (c * E.ndof) + (j * E.ndof + b)) * (c * E.ndof) + (i * E.ndof + a)) *
        v (conn e b) j := by
    intro e a ha
    have := C51.C51_matrix h h' c c hc hd z (Or.inl rfl) D elements (gatherE E.ndof conn v) (fun _ => 0) (fun _ => 0) e _ (idx_lt i (mem_range.1 ha))
    simp only [sub_zero] at this
    rw [this, C42.sum_flat, ← Fin.sum_univ_eq_sum_range
      (fun j => ∑ J ∈ range E.ndof, gradientKernel E E c c z D elements (fun _ => 0) ((e * (c * E.ndof) + (j * E.ndof + J)) * (c * E.ndof) + (i * E.ndof + a)) *
        gatherE E.ndof conn v (e * (c * E.ndof) + (j * E.ndof + J))) c, sum_comm]
    exact sum_congr rfl fun b hb => sum_congr rfl fun j _ => by rw [C71.gather_at conn v e j (mem_range.1 hb)]
  rw [sum_congr rfl fun e _ => sum_congr rfl fun a ha => by rw [hm e a ha]]
  simp only [sum_mul]
  have e1 : ∀ m : Fin nn, ∑ j : Fin c, ∑ e ∈ range ne, ∑ a ∈ range E.ndof, ∑ b ∈ range E.ndof,
      (if conn e a = n ∧ conn e b = m then gradientKernel E E c c z D elements (fun _ => 0)
        ((e * (c * E.ndof) + (j * E.ndof + b)) * (c * E.ndof) + (i * E.ndof + a)) else 0) * v m j =
      ∑ e ∈ range ne, ∑ a ∈ range E.ndof, ∑ b ∈ range E.ndof, ∑ j : Fin c, (if conn e a = n ∧ conn e b = m then gradientKernel E E c c z D elements (fun _ => 0)
        ((e * (c * E.ndof) + (j * E.ndof + b)) * (c * E.ndof) + (i * E.ndof + a)) * v m j else 0) := by
    intro m
    rw [sum_comm]
    refine sum_congr rfl fun e _ => ?_
    rw [sum_comm]
    refine sum_congr rfl fun a _ => ?_
    rw [sum_comm]
    exact sum_congr rfl fun b _ => sum_congr rfl fun j _ => by rw [ite_mul, zero_mul]
  simp only [e1]
  refine Eq.symm ?_
  rw [sum_comm]
  refine sum_congr rfl fun e _ => ?_
  rw [sum_comm]
  refine sum_congr rfl fun a _ => ?_
  rw [sum_comm]
  by_cases hn : conn e a = n
  · rw [if_pos hn]
    refine sum_congr rfl fun b _ => ?_
    rw [sum_comm]
    exact sum_congr rfl fun j _ => by simp [hn]
  · simp [hn]

theorem action_zero {E : Elem ℝ} {c : ℕ} (D : Buffer ℝ) (elements : List ℕ) (U r : ℕ → ℝ) : actionKernel E E c c zeroShape D elements U r = r := by
  unfold actionKernel
  induction elements.zipIdx generalizing r with
  | nil => rfl
  | cons a l ih =>
    rw [List.foldl_cons]
    exact ih r

theorem loop_id {A : Type} (n : ℕ) (a : A) : loop n (fun x _ => x) a = a := by
  unfold loop
  induction List.range n with
  | nil => rfl
  | cons k l ih => exact ih

theorem gradient_zero {E : Elem ℝ} {c : ℕ} (D : Buffer ℝ) (elements : List ℕ) (K : ℕ → ℝ) : gradientKernel E E c c zeroShape D elements K = K := by
  unfold gradientKernel
  induction elements.zipIdx generalizing K with
  | nil => rfl
  | cons a l ih =>
    rw [List.foldl_cons]
    refine Eq.trans ?_ (ih K)
    exact congrArg (fun K' => List.foldl _ K' l) (loop_id _ K)

end Generic

/-! ## Spec: the forms -/

section Spec
variable {d : Dim} (L : Loaded d) (s sF : Shapes)

/-- `∫ ∇v : A : ∇w`, with the moduli at the gradient of `u`. -/
def stiffForm (A : Moduli d) (u w v : Ode.Vec L.B.N) : ℝ := C73.integral L.B s L.B.S.elements fun ee Q =>
  ∑ i, ∑ m, ∑ j, ∑ n, A (ee.2 * L.B.S.E.npts + Q) (C71.grad L.B.S s (L.B.nodal u) ee.1 Q) i m j n * C73.grd L.B s w ee.1 Q j n * C73.grd L.B s v ee.1 Q i m

/-- How the area vector of a face with tangents `J` changes with them. -/
def turn : (d : Dim) → (J G : Matrix (Fin d.n) (Fin (faceDim d)) ℝ) → Fin d.n → ℝ
  | .two, _, G => C75.area .two G
  | .three, J, G => crossProduct (fun i => J i 0) (fun i => G i 1) + crossProduct (fun i => G i 0) (fun i => J i 1)

/-- The change of the virtual work of a load: pressures follow the faces if geometric nonlinearities are on. -/
def follow (t : ℝ) (u w : L.B.S.Nodal) (v : ℕ → ℕ → Fin d.n → ℝ) : Load d → ℝ
  | .traction _ _ => 0
  | .pressure l f => C75.integral L.F sF l fun ee Q => -(f (C75.place L.F sF L.B.S.pos ee.1 Q) t *
      ∑ i, (if L.B.S.on then turn d (C75.tangents L.F sF L.B.S.pos ee.1 Q + C75.der L.F sF d u ee.1 Q) (C75.der L.F sF d w ee.1 Q) i else 0) * v ee.1 Q i)

/-- All loads. -/
def followForm (t : ℝ) (u w v : Ode.Vec L.B.N) : ℝ := (L.loads.map (follow L sF t (L.B.nodal u) (L.B.nodal w) (C75.val L.F sF (L.B.nodal v)))).sum

end Spec

/-! ## The stiffness -/

section Stiffness
variable {d : Dim} {L : Loaded d} {s sF : Shapes}

theorem flat4_eq {n : ℕ} (D : Fin n → Fin n → Fin n → Fin n → ℝ) (i l j k : Fin n) : flat4 D i l j k = D i l j k := by simp [flat4]

theorem flat3_eq {n m : ℕ} (D : Fin n → Fin n → Fin m → ℝ) (i j : Fin n) (k : Fin m) : flat3 D i j k = D i j k := by simp [flat3]

/-- The interpolated direction at a point. -/
theorem grad_at {E : Elem ℝ} {phi dphi} (h : C51.Trial E phi dphi) {nn c : ℕ} (conn : ℕ → ℕ → Fin nn) (u : Fin nn → Vec ℝ c) (e Q : ℕ) (i : Fin c) (k : ℕ) :
    (interpolate E fun p => gatherE E.ndof conn u (e * (c * E.ndof) + p)).grad Q i k = ∑ a ∈ range E.ndof, u (conn e a) i * dphi Q a k := by
  simp only [interpolate, h.grad]
  exact sum_congr rfl fun a ha => by rw [C71.gather_at conn u e i (mem_range.1 ha)]

theorem value_at {E : Elem ℝ} {phi dphi} (h : C51.Trial E phi dphi) {nn c : ℕ} (conn : ℕ → ℕ → Fin nn) (u : Fin nn → Vec ℝ c) (e Q : ℕ) (i : Fin c) :
    (interpolate E fun p => gatherE E.ndof conn u (e * (c * E.ndof) + p)).value Q i = ∑ a ∈ range E.ndof, u (conn e a) i * phi Q a := by
  simp only [interpolate, h.value]
  exact sum_congr rfl fun a ha => by rw [C71.gather_at conn u e i (mem_range.1 ha)]

/-- The action kernel tested, whatever it stored at the points. -/
theorem action_tested {E : Elem ℝ} {phi dphi wt} (h : C51.Test E phi dphi wt) (h' : C51.Trial E phi dphi) {c dim : ℕ} (hc : 0 < c) (hd : E.dim = dim) (hd0 : 0 < dim) (z : Shape)
    (D : Buffer ℝ) {nn ne : ℕ} (conn : ℕ → ℕ → Fin nn) {l : List ℕ} (hl : ∀ e ∈ l, e < ne) (w v : Fin nn → Vec ℝ c) :
    ∑ n, ∑ i, scatterE E.ndof ne conn (actionKernel E E c c z D l (gatherE E.ndof conn w) fun _ => 0) n i * v n i =
      (l.zipIdx.map fun ee => ∑ Q ∈ range E.npts, wt Q *
        ((∑ i : Fin c, (∑ j : Fin c, (C51.e00 z (D (ee.2 * E.npts + Q)) i j * (∑ a ∈ range E.ndof, w (conn ee.1 a) j * phi Q a) +
            ∑ k : Fin dim, C51.e01 z (D (ee.2 * E.npts + Q)) i j k * ∑ a ∈ range E.ndof, w (conn ee.1 a) j * dphi Q a k)) *
            ∑ a ∈ range E.ndof, v (conn ee.1 a) i * phi Q a) +
          ∑ i : Fin c, ∑ q : Fin dim, (∑ j : Fin c, (C51.e10 z (D (ee.2 * E.npts + Q)) i q j * (∑ a ∈ range E.ndof, w (conn ee.1 a) j * phi Q a) +
            ∑ k : Fin dim, C51.e11 z (D (ee.2 * E.npts + Q)) i q j k * ∑ a ∈ range E.ndof, w (conn ee.1 a) j * dphi Q a k)) *
            ∑ a ∈ range E.ndof, v (conn ee.1 a) i * dphi Q a q)).sum := by
  refine form_tested conn wt phi dphi hl _ (fun ee Q i => ∑ j : Fin c, (C51.e00 z (D (ee.2 * E.npts + Q)) i j * (∑ a ∈ range E.ndof, w (conn ee.1 a) j * phi Q a) +
            ∑ k : Fin dim, C51.e01 z (D (ee.2 * E.npts + Q)) i j k * ∑ a ∈ range E.ndof, w (conn ee.1 a) j * dphi Q a k))
      (fun ee Q i q => ∑ j : Fin c, (C51.e10 z (D (ee.2 * E.npts + Q)) i q j * (∑ a ∈ range E.ndof, w (conn ee.1 a) j * phi Q a) +
            ∑ k : Fin dim, C51.e11 z (D (ee.2 * E.npts + Q)) i q j k * ∑ a ∈ range E.ndof, w (conn ee.1 a) j * dphi Q a k)) (fun e k hk i => ?_) v
  obtain ⟨e1, e2⟩ := C75.at_div (p := (i : ℕ)) hk
  rw [C51.action_at h c c hc (by rw [hd]; exact hd0) z D l _ _ e _ (idx_lt i hk) (Or.inl rfl), zero_add, e1, e2]
  congr 1
  refine List.map_congr_left fun ee _ => ?_
  by_cases he : ee.1 = e
  · rw [if_pos he, if_pos he]
    dsimp only
    unfold C51.weigh C51.dSource C51.dFlux
    subst hd
    refine sum_congr rfl fun Q _ => ?_
    have hcs : ∀ f : ℕ → ℝ, ∑ j ∈ range c, f j = ∑ j : Fin c, f j := fun f => (Fin.sum_univ_eq_sum_range f c).symm
    have hds : ∀ f : ℕ → ℝ, ∑ j ∈ range E.dim, f j = ∑ j : Fin E.dim, f j := fun f => (Fin.sum_univ_eq_sum_range f E.dim).symm
    beta_reduce
    rw [he, hcs, hds]
    simp only [hcs, value_at h']
    congr 2
    · congr 1
      refine sum_congr rfl fun j _ => ?_
      rw [hds]
      simp only [grad_at h']
    · refine sum_congr rfl fun q _ => ?_
      congr 1
      refine sum_congr rfl fun j _ => ?_
      rw [hds]
      simp only [grad_at h']
  · rw [if_neg he, if_neg he]

theorem store_at {npts : ℕ} {E : Elem ℝ} {c : ℕ} (grad : ℕ → (ℕ → ℝ) → (ℕ → ℕ → ℝ) → Deriv ℝ) {l : List ℕ} (U : ℕ → ℝ) (old : Buffer ℝ) {ee : ℕ × ℕ} (h : ee ∈ l.zipIdx)
    {Q : ℕ} (hQ : Q < npts) : evalDerivs npts E c grad l U old (ee.2 * npts + Q) =
      grad (ee.2 * npts + Q) ((interpolate E fun p => U (ee.1 * (c * E.ndof) + p)).value Q) ((interpolate E fun p => U (ee.1 * (c * E.ndof) + p)).grad Q) :=
  C51.derivs_at npts E c grad l U old ee h Q hQ

theorem contract4 {n : ℕ} (A : Fin n → Fin n → Fin n → Fin n → ℝ) (Ji JTi W V : Fin n → Fin n → ℝ) (hT : ∀ m q, JTi m q = Ji q m) (c : ℝ) :
    ∑ i, ∑ q, (∑ j, ∑ k, (∑ m, (∑ l, A i m j l * Ji k l) * JTi m q) * c * W j k) * V i q =
      c * ∑ i, ∑ m, ∑ j, ∑ l, A i m j l * (∑ k, W j k * Ji k l) * ∑ q, V i q * Ji q m := by
  rw [mul_sum]
  refine sum_congr rfl fun i _ => ?_
  have e1 : ∀ q, ∑ j, ∑ k, (∑ m, (∑ l, A i m j l * Ji k l) * JTi m q) * c * W j k = ∑ m, (∑ j, ∑ l, A i m j l * (∑ k, W j k * Ji k l)) * (c * Ji q m) := by
    intro q
    simp only [hT]
    have : ∀ j k, (∑ m, (∑ l, A i m j l * Ji k l) * Ji q m) * c * W j k = ∑ m, (∑ l, A i m j l * Ji k l * W j k) * (c * Ji q m) := by
      intro j k
      rw [sum_mul, sum_mul]
      refine sum_congr rfl fun m _ => ?_
      rw [sum_mul, sum_mul, sum_mul, sum_mul]
      exact sum_congr rfl fun l _ => by ring
    simp only [this]
    rw [sum_congr rfl fun j _ => sum_comm, sum_comm]
    refine sum_congr rfl fun m _ => ?_
    rw [sum_mul]
    refine sum_congr rfl fun j _ => ?_
    rw [← sum_mul, sum_comm]
    congr 1
    refine sum_congr rfl fun l _ => ?_
    rw [mul_sum]
    exact sum_congr rfl fun k _ => by ring
  simp only [e1]
  simp only [sum_mul]
  rw [sum_comm, mul_sum]
  refine sum_congr rfl fun m _ => ?_
  rw [sum_comm, mul_sum]
  refine sum_congr rfl fun j _ => ?_
  rw [sum_comm, mul_sum]
  refine sum_congr rfl fun l _ => ?_
  generalize ∑ k, W j k * Ji k l = x
  rw [mul_sum, mul_sum]
  exact sum_congr rfl fun q _ => by ring

/-- The material's part. -/
theorem material_tested (hm : C71.Meaning L.B.S s) (hn : C71.Nondegenerate L.B.S s) (A : Moduli d) (old : Buffer ℝ) (u w v : Ode.Vec L.B.N) :
    ∑ n, ∑ i, scatterE L.B.S.E.ndof L.B.S.ne L.B.S.conn (actionKernel L.B.S.E L.B.S.E d.n d.n stiffShape (L.B.S.stiffBuffer A old (L.B.nodal u)) L.B.S.elements
      (gatherE L.B.S.E.ndof L.B.S.conn (L.B.nodal w)) fun _ => 0) n i * L.B.nodal v n i = stiffForm L s A u w v := by
  have hd : 0 < d.n := by cases d <;> decide
  rw [action_tested hm.test hm.trial hd hm.dim hd stiffShape _ L.B.S.conn hm.mem]
  unfold stiffForm C73.integral
  congr 1
  refine List.map_congr_left fun ee hee => sum_congr rfl fun Q hQ => ?_
  congr 1
  have hJ := hn ee.1 (C71.mem_zipIdx_fst hee) Q (mem_range.1 hQ)
  have hJT : ((C71.jac L.B.S s ee.1 Q)ᵀ).det ≠ 0 := by rwa [Matrix.det_transpose]
  obtain ⟨q1, q2⟩ := C75.at_div (p := ee.2) (mem_range.1 hQ)
  have hg : ((fun i j => (interpolate L.B.S.E fun p => gatherE L.B.S.E.ndof L.B.S.conn (L.B.nodal u) (ee.1 * (d.n * L.B.S.E.ndof) + p)).grad Q (i : ℕ) (j : ℕ)) : M d.n) =
      C71.parGrad L.B.S s (L.B.nodal u) ee.1 Q := congrArg Prod.snd (C71.interp_eq hm.trial L.B.S.conn (L.B.nodal u) ee.1 Q)
  have hD : ∀ i q j k : Fin d.n, C51.e11 stiffShape (L.B.S.stiffBuffer A old (L.B.nodal u) (ee.2 * L.B.S.E.npts + Q)) i q j k =
      (∑ m, (∑ n, A (ee.2 * L.B.S.E.npts + Q) (C71.grad L.B.S s (L.B.nodal u) ee.1 Q) i m j n * (C71.jac L.B.S s ee.1 Q)⁻¹ k n) * (C71.jac L.B.S s ee.1 Q)ᵀ⁻¹ m q) *
        (C71.jac L.B.S s ee.1 Q).det := by
    intro i q j k
    unfold Setup.stiffBuffer
    rw [store_at _ _ _ hee (mem_range.1 hQ)]
    simp only [C51.e11, stiffShape, Bool.false_eq_true, if_false, Setup.stiffGrad, flat4_eq]
    rw [q1, q2, C71.jacobian_eq hm hee, hg, Transform.inv_eq d _ hJ, Tensor.transpose_eq, Transform.inv_eq d _ hJT, Transform.det_eq, Matrix.det_transpose]
    simp only [Option.getD_some, Tensor.dot_eq]
    rfl
  have hz0 : ∀ D i j, C51.e00 (R := ℝ) stiffShape D i j = 0 := fun _ _ _ => rfl
  have hz1 : ∀ D i j k, C51.e01 (R := ℝ) stiffShape D i j k = 0 := fun _ _ _ _ => rfl
  have hz2 : ∀ D i j k, C51.e10 (R := ℝ) stiffShape D i j k = 0 := fun _ _ _ _ => rfl
  simp only [hz0, hz1, hz2, hD, zero_mul, sum_const_zero, zero_add, add_zero]
  exact contract4 _ _ _ (C71.parGrad L.B.S s (L.B.nodal w) ee.1 Q) (C71.parGrad L.B.S s (L.B.nodal v) ee.1 Q)
    (fun m q => by rw [← Matrix.transpose_nonsing_inv, Matrix.transpose_apply]) _

theorem turn_eq (X G : Matrix (Fin d.n) (Fin (faceDim d)) ℝ) (i : Fin d.n) : ∑ j, ∑ k, crossGrad d X i j k * G j k = turn d X G i := by
  cases d with
  | two =>
    revert i
    change ∀ i : Fin 2, _
    intro i
    change ∑ j : Fin 2, ∑ k : Fin 1, _ = _
    fin_cases i <;> simp [crossGrad, crossAt, crossFace2, turn, C75.area]
  | three =>
    revert i
    change ∀ i : Fin 3, _
    intro i
    change ∑ j : Fin 3, ∑ k : Fin 2, _ = _
    fin_cases i <;> simp [crossGrad, crossAt, crossCols, turn, Fin.sum_univ_three, Fin.sum_univ_two, crossProduct] <;> ring

theorem cross_eq (X : Matrix (Fin d.n) (Fin (faceDim d)) ℝ) : crossAt d X = C75.area d X := by
  cases d with
  | two => exact C75.cross_two _
  | three => exact C75.cross_three _

/-- A load's part. -/
theorem load_tested (hF : C75.Meaning L.F sF d) {l : Load d} (hl : C75.Good L.F sF L.B.S.pos l.elements) (t : ℝ) (old : Buffer ℝ) (u w v : Ode.Vec L.B.N) :
    ∑ n, ∑ i, scatterE L.F.E.ndof L.F.ne L.F.conn (actionKernel L.F.E L.F.E d.n d.n (Loaded.loadShape l) (L.loadBuffer l t old (L.B.nodal u)) l.elements
      (gatherE L.F.E.ndof L.F.conn (L.B.nodal w)) fun _ => 0) n i * L.B.nodal v n i =
      -follow L sF t (L.B.nodal u) (L.B.nodal w) (C75.val L.F sF (L.B.nodal v)) l := by
  have hd : 0 < d.n := by cases d <;> decide
  have hd' : 0 < faceDim d := by cases d <;> decide
  cases l with
  | traction l f =>
    unfold Loaded.loadShape
    rw [action_zero]
    simp [scatterE, follow]
  | pressure l f =>
    rw [action_tested hF.test hF.trial hd hF.dim hd' _ _ L.F.conn fun e he => (hl e he).1]
    unfold follow C75.integral
    rw [List.sum_neg, List.map_map]
    congr 1
    refine List.map_congr_left fun ee hee => ?_
    rw [Function.comp_apply, ← sum_neg_distrib]
    refine sum_congr rfl fun Q hQ => ?_
    beta_reduce
    rw [← mul_neg, neg_neg]
    congr 1
    have hA := (hl ee.1 (C71.mem_zipIdx_fst hee)).2 Q (mem_range.1 hQ)
    obtain ⟨q1, q2⟩ := C75.at_div (p := ee.2) (mem_range.1 hQ)
    have hz0 : ∀ D i j, C51.e00 (R := ℝ) pressureShape D i j = 0 := fun _ _ _ => rfl
    have hz2 : ∀ D i j k, C51.e10 (R := ℝ) pressureShape D i j k = 0 := fun _ _ _ _ => rfl
    have hz3 : ∀ D i j k m, C51.e11 (R := ℝ) pressureShape D i j k m = 0 := fun _ _ _ _ _ => rfl
    have hD : ∀ (i j : Fin d.n) (k : Fin (faceDim d)), C51.e01 pressureShape (L.loadBuffer (.pressure l f) t old (L.B.nodal u) (ee.2 * L.F.E.npts + Q)) i j k =
        f (C75.place L.F sF L.B.S.pos ee.1 Q) t * (if L.B.S.on then
          crossGrad d (C75.tangents L.F sF L.B.S.pos ee.1 Q + C75.der L.F sF d (L.B.nodal u) ee.1 Q) i j k else 0) := by
      intro i j k
      unfold Loaded.loadBuffer
      rw [store_at _ _ _ hee (mem_range.1 hQ)]
      simp only [C51.e01, pressureShape, Bool.false_eq_true, if_false, Loaded.loadGrad, flat3_eq]
      have h3 := C75.interp_eq (d := d) hF.trial L.F.conn (L.B.nodal u) ee.1 Q
      unfold Faces.interp at h3
      rw [q1, q2, C75.geometry_eq hF _ hee, h3]
      have hw : Transform.norm (crossAt d (C75.tangents L.F sF L.B.S.pos ee.1 Q)) ≠ 0 := by
        rw [cross_eq]
        exact (C65.len_zero _).not.2 hA
      unfold pressureGrad
      dsimp only
      rw [div_self hw]
      cases L.B.S.on
      · simp
      · have : addM (addM (C75.tangents L.F sF L.B.S.pos ee.1 Q) (smulM (C75.der L.F sF d (L.B.nodal u) ee.1 Q) 0)) (C75.der L.F sF d (L.B.nodal u) ee.1 Q) =
            C75.tangents L.F sF L.B.S.pos ee.1 Q + C75.der L.F sF d (L.B.nodal u) ee.1 Q := by
          rw [addM_eq, addM_eq, smulM_eq, zero_smul, add_zero]
        change crossGrad d (addM (addM (C75.tangents L.F sF L.B.S.pos ee.1 Q) (smulM (C75.der L.F sF d (L.B.nodal u) ee.1 Q) 0))
          (C75.der L.F sF d (L.B.nodal u) ee.1 Q)) i j k * (0 + 1) / _ * _ * 1 * _ = _ * crossGrad d _ i j k
        rw [this]
        field_simp
        ring
    simp only [Loaded.loadShape, hz0, hz2, hz3, hD, zero_mul, sum_const_zero, zero_add, add_zero]
    rw [mul_sum]
    refine sum_congr rfl fun i _ => ?_
    rw [← mul_assoc]
    refine congrArg₂ (· * ·) ?_ rfl
    cases L.B.S.on
    · simp
    · simp only [if_true, mul_assoc, ← mul_sum]
      rw [← turn_eq]
      rfl

theorem foldl_sum {α G : Type} [AddCommMonoid G] (g : α → G) (l : List α) (x : G) : l.foldl (fun x a => x + g a) x = x + (l.map g).sum := by
  induction l generalizing x with
  | nil => simp
  | cons a l ih => rw [List.foldl_cons, ih, List.map_cons, List.sum_cons, add_assoc]

/-- The action without the body forces, which contribute nothing. -/
theorem stiffAction_eq (A : Moduli d) (old : Buffer ℝ) (t : ℝ) (u w : Ode.Vec L.B.N) : L.stiffAction A old t u w =
    L.B.vector (scatterE L.B.S.E.ndof L.B.S.ne L.B.S.conn (actionKernel L.B.S.E L.B.S.E d.n d.n stiffShape (L.B.S.stiffBuffer A old (L.B.nodal u)) L.B.S.elements
      (gatherE L.B.S.E.ndof L.B.S.conn (L.B.nodal w)) fun _ => 0)) +
    (L.loads.map fun l => L.B.vector (scatterE L.F.E.ndof L.F.ne L.F.conn (actionKernel L.F.E L.F.E d.n d.n (Loaded.loadShape l) (L.loadBuffer l t old (L.B.nodal u)) l.elements
      (gatherE L.F.E.ndof L.F.conn (L.B.nodal w)) fun _ => 0))).sum := by
  unfold Loaded.stiffAction
  dsimp only
  rw [foldl_sum]
  have : ∀ (fs : List (Force d)) (r : ℕ → ℝ), fs.foldl (fun r f => actionKernel L.B.S.E L.B.S.E d.n d.n zeroShape
      (fun _ => ⟨fun _ _ => 0, fun _ _ _ => 0, fun _ _ _ => 0, fun _ _ _ _ => 0⟩) f.elements (gatherE L.B.S.E.ndof L.B.S.conn (L.B.nodal w)) r) r = r := by
    intro fs
    induction fs with
    | nil => intro r; rfl
    | cons f fs ih =>
      intro r
      rw [List.foldl_cons, action_zero]
      exact ih r
  rw [this]

/-- **C77, the form of the stiffness.**  Tested with any vector: the moduli between the two gradients, minus the change of the loads that follow the body. -/
theorem C77_form (hm : C71.Meaning L.B.S s) (hn : C71.Nondegenerate L.B.S s) (hF : C75.Meaning L.F sF d) (hl : C75.AllGood L sF) (A : Moduli d) (old : Buffer ℝ) (t : ℝ)
    (u w v : Ode.Vec L.B.N) : ∑ k, L.stiffAction A old t u w k * v k = stiffForm L s A u w v - followForm L sF t u w v := by
  rw [stiffAction_eq]
  have h1 : ∀ r r' : Ode.Vec L.B.N, ∑ k, (r + r') k * v k = ∑ k, r k * v k + ∑ k, r' k * v k := fun r r' => by
    rw [← sum_add_distrib]
    exact sum_congr rfl fun k _ => add_mul _ _ _
  rw [h1, C73.vector_dot, material_tested hm hn, sub_eq_add_neg]
  congr 1
  unfold followForm
  have key : ∀ ls : List (Load d), (∀ l ∈ ls, C75.Good L.F sF L.B.S.pos l.elements) →
      ∑ k, (ls.map fun l => L.B.vector (scatterE L.F.E.ndof L.F.ne L.F.conn (actionKernel L.F.E L.F.E d.n d.n (Loaded.loadShape l) (L.loadBuffer l t old (L.B.nodal u))
        l.elements (gatherE L.F.E.ndof L.F.conn (L.B.nodal w)) fun _ => 0))).sum k * v k =
      -(ls.map (follow L sF t (L.B.nodal u) (L.B.nodal w) (C75.val L.F sF (L.B.nodal v)))).sum := by
    intro ls
    induction ls with
    | nil => intro _; simp
    | cons l ls ih =>
      intro h
      rw [List.map_cons, List.sum_cons, h1, ih fun x hx => h x (List.mem_cons_of_mem _ hx), C73.vector_dot, load_tested hF (h l List.mem_cons_self), List.map_cons,
        List.sum_cons]
      ring
  exact key L.loads hl

/-- **C77, the form of the mass matrix** is the virtual work of inertia. -/
theorem C77_mass_form (hm : C71.Meaning L.B.S s) (old : Buffer ℝ) (a b v : Ode.Vec L.B.N) :
    ∑ k, L.massAction old a b k * v k = C73.inertia L.B s b v := by
  have hd : 0 < d.n := by cases d <;> decide
  unfold Loaded.massAction
  rw [C73.vector_dot, action_tested hm.test hm.trial hd hm.dim hd massShape _ L.B.S.conn hm.mem]
  unfold C73.inertia C73.integral
  congr 1
  refine List.map_congr_left fun ee hee => sum_congr rfl fun Q hQ => ?_
  congr 1
  obtain ⟨q1, q2⟩ := C75.at_div (p := ee.2) (mem_range.1 hQ)
  have hD : ∀ i j : Fin d.n, C51.e00 massShape (L.B.S.massBuffer old (L.B.nodal a) (ee.2 * L.B.S.E.npts + Q)) i j =
      if i = j then L.B.S.density * (C71.jac L.B.S s ee.1 Q).det else 0 := by
    intro i j
    unfold Setup.massBuffer
    rw [store_at _ _ _ hee (mem_range.1 hQ)]
    simp only [C51.e00, massShape, Bool.false_eq_true, if_false, Setup.massGrad, Fin.val_inj]
    rw [q1, q2, C71.jacobian_eq hm hee, Tensor.transpose_eq, Transform.det_eq, Matrix.det_transpose]
  have hz1 : ∀ D i j k, C51.e01 (R := ℝ) massShape D i j k = 0 := fun _ _ _ _ => rfl
  have hz2 : ∀ D i j k, C51.e10 (R := ℝ) massShape D i j k = 0 := fun _ _ _ _ => rfl
  have hz3 : ∀ D i j k m, C51.e11 (R := ℝ) massShape D i j k m = 0 := fun _ _ _ _ _ => rfl
  simp only [hD, hz1, hz2, hz3, zero_mul, sum_const_zero, add_zero, ite_mul, sum_ite_eq, mem_univ, if_true]
  rw [mul_sum, mul_sum]
  exact sum_congr rfl fun i _ => by
    unfold C73.val C71.value
    ring

/-! ### The matrices -/

theorem num_sum (f : Fin L.B.S.nn × Fin d.n → ℝ) (w : Ode.Vec L.B.N) : ∑ m, f (L.B.num.symm m) * w m = ∑ n, ∑ j, f (n, j) * L.B.nodal w n j := by
  rw [← Fintype.sum_prod_type']
  refine (Fintype.sum_equiv L.B.num (fun p => f p * L.B.nodal w p.1 p.2) _ fun p => ?_).symm
  unfold Body.nodal
  rw [Equiv.symm_apply_apply]

/-- **C77, matrix and action.**  The assembled matrices times a vector are the actions. -/
theorem C77_matrix (hm : C71.Meaning L.B.S s) (hF : C75.Meaning L.F sF d) (A : Moduli d) (old old' : Buffer ℝ) (t : ℝ) (u a w : Ode.Vec L.B.N) :
    Elim.mulVec (L.stiffMatrix A old t u) w = L.stiffAction A old t u w ∧ Elim.mulVec (L.massMatrix old' a) w = L.massAction old' a w := by
  have hd : 0 < d.n := by cases d <;> decide
  have hd' : 0 < faceDim d := by cases d <;> decide
  have hE : 0 < L.B.S.E.dim := by rw [hm.dim]; exact hd
  have hE' : 0 < L.F.E.dim := by rw [hF.dim]; exact hd'
  constructor
  · funext k
    rw [stiffAction_eq]
    unfold Elim.mulVec Loaded.stiffMatrix
    dsimp only
    have hz : ∀ (fs : List (Force d)) (K : ℕ → ℝ), fs.foldl (fun K f => gradientKernel L.B.S.E L.B.S.E d.n d.n zeroShape
        (fun _ => ⟨fun _ _ => 0, fun _ _ _ => 0, fun _ _ _ => 0, fun _ _ _ _ => 0⟩) f.elements K) K = K := by
      intro fs
      induction fs with
      | nil => intro K; rfl
      | cons f fs ih =>
        intro K
        rw [List.foldl_cons, gradient_zero]
        exact ih K
    rw [hz]
    simp only [foldl_sum, add_mul, sum_add_distrib, Pi.add_apply]
    congr 1
    · rw [num_sum (f := fun q => assembleE _ _ _ _ _ q)]
      exact (assemble_mul hm.test hm.trial hd hE _ _ _ _ _ _ _).symm
    · induction L.loads with
      | nil => simp
      | cons l ls ih =>
        simp only [List.map_cons, List.sum_cons, add_mul, sum_add_distrib, Pi.add_apply]
        rw [ih, num_sum (f := fun q => assembleE _ _ _ _ _ q)]
        congr 1
        exact (assemble_mul hF.test hF.trial hd hE' _ _ _ _ _ _ _).symm
  · funext k
    unfold Elim.mulVec Loaded.massMatrix Loaded.massAction
    rw [num_sum (f := fun q => assembleE _ _ _ _ _ q)]
    exact (assemble_mul hm.test hm.trial hd hE _ _ _ _ _ _ _).symm

end Stiffness

/-! ## The derivative of the residual -/

section Derivative
variable {d : Dim} (L : Loaded d) (s sF : Shapes)

/-- `A` are the moduli of the material at the gradients of `u`: near them the flux is defined, and it is differentiable there with derivative `A`. -/
def Tangent (A : Moduli d) (u : Ode.Vec L.B.N) : Prop := ∀ ee ∈ L.B.S.elements.zipIdx, ∀ Q < L.B.S.E.npts,
  let p := ee.2 * L.B.S.E.npts + Q
  let H : Fin d.n → Fin d.n → ℝ := C71.grad L.B.S s (L.B.nodal u) ee.1 Q
  (∀ᶠ G : Fin d.n → Fin d.n → ℝ in nhds H, (materialFlux (ops d) L.B.S.on (L.B.S.material p) (Matrix.of G)).isSome) ∧
  ∀ i m, Diff (fun G : Fin d.n → Fin d.n → ℝ => (materialFlux (ops d) L.B.S.on (L.B.S.material p) (Matrix.of G)).getD 0 i m) (fun G => ∑ j, ∑ n, A p H i m j n * G j n) H

/-- The vector with a one at `k`. -/
def one (k : Fin L.B.N) : Ode.Vec L.B.N := fun m => if m = k then 1 else 0

variable {L s sF}

theorem dot_one (r : Ode.Vec L.B.N) (k : Fin L.B.N) : ∑ m, r m * one L k m = r k := by
  simp [one]

/-- The gradient at a point as a linear map. -/
def gradMap (L : Loaded d) (s : Shapes) (e Q : ℕ) : Ode.Vec L.B.N →L[ℝ] (Fin d.n → Fin d.n → ℝ) :=
  LinearMap.toContinuousLinearMap
    { toFun := fun v i j => C73.grd L.B s v e Q i j
      map_add' := fun v w => by funext i j; simpa using C73.grd_lin (B := L.B) (s := s) 1 1 v w e Q i j
      map_smul' := fun x v => by funext i j; simpa using C73.grd_lin (B := L.B) (s := s) x 0 v 0 e Q i j }

theorem gradMap_apply (e Q : ℕ) (v : Ode.Vec L.B.N) : gradMap L s e Q v = C71.grad L.B.S s (L.B.nodal v) e Q := rfl

/-- The flux the residual uses, zero where there is none. -/
def fluxes (L : Loaded d) (s : Shapes) (u : Ode.Vec L.B.N) (ee : ℕ × ℕ) (Q : ℕ) : M d.n :=
  (materialFlux (ops d) L.B.S.on (L.B.S.material (ee.2 * L.B.S.E.npts + Q)) (C71.grad L.B.S s (L.B.nodal u) ee.1 Q)).getD 0

theorem eventually_list {α β : Type} (F : Filter α) (l : List β) (p : β → α → Prop) (h : ∀ b ∈ l, ∀ᶠ a in F, p b a) : ∀ᶠ a in F, ∀ b ∈ l, p b a := by
  induction l with
  | nil => simp
  | cons b l ih =>
    filter_upwards [h b List.mem_cons_self, ih fun x hx => h x (List.mem_cons_of_mem _ hx)] with a h1 h2 x hx
    rcases List.mem_cons.1 hx with rfl | hx
    · exact h1
    · exact h2 x hx

/-- Near `u` the stress is defined. -/
theorem near {A : Moduli d} {u : Ode.Vec L.B.N} (hA : Tangent L s A u) : ∀ᶠ w in nhds u, C71.Stress L.B.S s (L.B.nodal w) (fluxes L s w) := by
  have h : ∀ᶠ w in nhds u, ∀ ee ∈ L.B.S.elements.zipIdx, ∀ Q ∈ List.range L.B.S.E.npts,
      (materialFlux (ops d) L.B.S.on (L.B.S.material (ee.2 * L.B.S.E.npts + Q)) (C71.grad L.B.S s (L.B.nodal w) ee.1 Q)).isSome := by
    refine eventually_list _ _ _ fun ee hee => eventually_list _ _ _ fun Q hQ => ?_
    exact (gradMap L s ee.1 Q).continuous.continuousAt.eventually (hA ee hee Q (List.mem_range.1 hQ)).1
  filter_upwards [h] with w hw ee hee Q hQ
  unfold fluxes
  obtain ⟨P, hP⟩ := Option.isSome_iff_exists.1 (hw ee hee Q (List.mem_range.2 hQ))
  rw [hP, Option.getD_some]

theorem tangent_defined {A : Moduli d} {u : Ode.Vec L.B.N} (hA : Tangent L s A u) : C71.Stress L.B.S s (L.B.nodal u) (fluxes L s u) :=
  (near hA).self_of_nhds

/-- The area vector of a face follows its tangents. -/
theorem area_diff (X G : Fin d.n → Fin (faceDim d) → ℝ) (i : Fin d.n) :
    Diff (fun H : Fin d.n → Fin (faceDim d) → ℝ => C75.area d (X + H) i) (fun H => turn d (X + G) H i) G := by
  have hc : ∀ (a : Fin d.n) (b : Fin (faceDim d)), Diff (fun H : Fin d.n → Fin (faceDim d) → ℝ => X a b + H a b) (fun H => H a b) G := fun a b =>
    Diff.const_add _ (Diff.lin (fun x y H K => by simp) G)
  cases d with
  | two =>
    revert i
    change ∀ i : Fin 2, _
    intro i
    fin_cases i
    · exact (hc 1 0).congr (fun _ => rfl) fun _ => rfl
    · exact (hc 0 0).neg.congr (fun _ => rfl) fun _ => rfl
  | three =>
    revert i
    change ∀ i : Fin 3, _
    intro i
    fin_cases i
    · refine (((hc 1 0).mul (hc 2 1)).sub ((hc 2 0).mul (hc 1 1))).congr (fun H => ?_) fun H => ?_ <;> simp [C75.area, turn, crossProduct]
      ring
    · refine (((hc 2 0).mul (hc 0 1)).sub ((hc 0 0).mul (hc 2 1))).congr (fun H => ?_) fun H => ?_ <;> simp [C75.area, turn, crossProduct]
      ring
    · refine (((hc 0 0).mul (hc 1 1)).sub ((hc 1 0).mul (hc 0 1))).congr (fun H => ?_) fun H => ?_ <;> simp [C75.area, turn, crossProduct]
      ring

/-- The derivative of a displacement on a face as a linear map. -/
def derMap (L : Loaded d) (sF : Shapes) (e Q : ℕ) : Ode.Vec L.B.N →L[ℝ] (Fin d.n → Fin (faceDim d) → ℝ) :=
  LinearMap.toContinuousLinearMap
    { toFun := fun v i k => C75.der L.F sF d (L.B.nodal v) e Q i k
      map_add' := fun v w => by
        funext i k
        simp only [C75.der, Body.nodal, Pi.add_apply, add_mul, sum_add_distrib]
      map_smul' := fun x v => by
        funext i k
        simp only [C75.der, Body.nodal, Pi.smul_apply, smul_eq_mul, mul_assoc, mul_sum, RingHom.id_apply] }

theorem external_diff (t : ℝ) (u v : Ode.Vec L.B.N) : Diff (fun w => C75.external L sF t w v) (fun w => followForm L sF t u w v) u := by
  unfold C75.external followForm
  refine Diff.list _ fun l _ => ?_
  cases l with
  | traction l f => exact Diff.const _ u
  | pressure l f =>
    unfold C75.work follow C75.integral
    refine Diff.list _ fun ee _ => Diff.sum _ fun Q _ => Diff.const_mul _ (Diff.neg (Diff.const_mul _ (Diff.sum _ fun i _ => Diff.mul_const _ ?_)))
    cases L.B.S.on
    · exact (Diff.const (C75.area d (C75.tangents L.F sF L.B.S.pos ee.1 Q + 0) i) u).congr (fun _ => rfl) fun _ => rfl
    · exact Diff.comp (derMap L sF ee.1 Q) (area_diff (C75.tangents L.F sF L.B.S.pos ee.1 Q) (C75.der L.F sF d (L.B.nodal u) ee.1 Q) i)

theorem residual_diff (hm : C71.Meaning L.B.S s) (hn : C71.Nondegenerate L.B.S s) (hf : C73.Domains L.B) (hF : C75.Meaning L.F sF d) (hl : C75.AllGood L sF) (t : ℝ)
    {A : Moduli d} {u : Ode.Vec L.B.N} (hA : Tangent L s A u) (a : Ode.Vec L.B.N) (old : Buffer ℝ) (k : Fin L.B.N) :
    Diff (fun w => L.residual t w a k) (fun w => L.stiffAction A old t u w k) u := by
  have h : Diff (fun w => C73.inertia L.B s a (one L k) +
      C73.integral L.B s L.B.S.elements (fun ee Q => ∑ i, ∑ j, fluxes L s w ee Q i j * C73.grd L.B s (one L k) ee.1 Q i j) - C73.load L.B s t (one L k) -
      C75.external L sF t w (one L k)) (fun w => 0 + stiffForm L s A u w (one L k) - 0 - followForm L sF t u w (one L k)) u := by
    refine Diff.sub (Diff.sub (Diff.add (Diff.const _ u) ?_) (Diff.const _ u)) (external_diff t u _)
    unfold C73.integral stiffForm C73.integral
    refine Diff.list _ fun ee hee => Diff.sum _ fun Q hQ => Diff.const_mul _ (Diff.const_mul _ (Diff.sum _ fun i _ => Diff.sum _ fun m _ => ?_))
    refine Diff.congr (Diff.mul_const _ (Diff.comp (gradMap L s ee.1 Q) ((hA ee hee Q (mem_range.1 hQ)).2 i m))) (fun w => rfl) fun w => ?_
    rw [sum_mul]
    refine sum_congr rfl fun j _ => ?_
    rw [sum_mul]
    rfl
  refine (h.congr_near ?_).congr (fun w => rfl) fun w => ?_
  · filter_upwards [near hA] with w hw
    rw [← dot_one (L.residual t w a) k, C75.C75_weak_form hm hn hf hF hl t w a _ _ hw]
  · rw [← dot_one (L.stiffAction A old t u w) k, C77_form hm hn hF hl]
    ring

/-- The eliminated matrix on vectors that vanish on the eliminated dofs. -/
theorem elim_free {n : ℕ} (K : Elim.Mat n) (fixed : List (Fin n)) (w : Elim.Vec n) (hw : ∀ k ∈ fixed, w k = 0) :
    Elim.mulVec (Elim.elim K fixed) w = fun k => if k ∈ fixed then 0 else Elim.mulVec K w k := by
  funext k
  unfold Elim.mulVec Elim.elim
  by_cases hk : k ∈ fixed
  · rw [if_pos hk]
    refine sum_eq_zero fun m _ => ?_
    rw [if_pos (Or.inl hk)]
    by_cases h : k = m
    · rw [← h, hw k hk, mul_zero]
    · rw [if_neg h, zero_mul]
  · rw [if_neg hk]
    refine sum_congr rfl fun m _ => ?_
    by_cases h : m ∈ fixed
    · rw [hw m h, mul_zero, mul_zero]
    · rw [if_neg (by rintro (h' | h') <;> contradiction)]

/-- **C77, the derivative.**  Where the material is differentiable the residual is differentiable in the displacement, and its derivative is the assembled matrix:
for any mesh, materials, body forces, tractions and pressures, whatever the buffers held before. -/
theorem C77_derivative (hm : C71.Meaning L.B.S s) (hn : C71.Nondegenerate L.B.S s) (hf : C73.Domains L.B) (hF : C75.Meaning L.F sF d) (hl : C75.AllGood L sF) (t : ℝ)
    {A : Moduli d} {u : Ode.Vec L.B.N} (hA : Tangent L s A u) (a : Ode.Vec L.B.N) (old : Buffer ℝ) :
    ∃ D : Ode.Vec L.B.N →L[ℝ] Ode.Vec L.B.N, (∀ w, D w = Elim.mulVec (L.stiffMatrix A old t u) w) ∧ HasFDerivAt (fun w => L.residual t w a) D u := by
  obtain ⟨D, h1, h2⟩ := Diff.pi fun k => residual_diff hm hn hf hF hl t hA a old k
  exact ⟨D, fun w => by rw [h1, (C77_matrix hm hF A old old t u u w).1], h2⟩

/-- The residual of a displacement that depends on the acceleration. -/
theorem dynamic_diff (hm : C71.Meaning L.B.S s) (hn : C71.Nondegenerate L.B.S s) (hf : C73.Domains L.B) (hF : C75.Meaning L.F sF d) (hl : C75.AllGood L sF)
    (st : Ode.State2 L.B.N) {A : Moduli d} {a : Ode.Vec L.B.N} (hA : Tangent L s A fun m => 1 * st.u m + st.c0 * a m) (old old' : Buffer ℝ) (k : Fin L.B.N) :
    Diff (fun b => L.residual st.time (fun m => 1 * st.u m + st.c0 * b m) b k) (fun b => Elim.mulVec (L.dynamicMatrix A old old' st a) b k) a := by
  set S : Ode.Vec L.B.N →L[ℝ] Ode.Vec L.B.N := st.c0 • ContinuousLinearMap.id ℝ _ with hS
  have hu : ∀ b : Ode.Vec L.B.N, (fun m => 1 * st.u m + st.c0 * b m) = st.u + S b := by
    intro b
    funext m
    simp [hS]
  have hU := hA
  rw [hu] at hU
  have h1 : Diff (fun b => L.residual st.time (st.u + S b) a k) (fun b => L.stiffAction A old st.time (st.u + S a) (S b) k) a :=
    Diff.comp_affine S st.u (residual_diff hm hn hf hF hl st.time hU a old k)
  have hi : ∀ (x y : ℝ) (b c : Ode.Vec L.B.N), C73.inertia L.B s (x • b + y • c) (one L k) = x * C73.inertia L.B s b (one L k) + y * C73.inertia L.B s c (one L k) :=
    fun x y b c => C73.inertia_lin x y b c _
  have h2 : Diff (fun b => C73.inertia L.B s b (one L k)) (fun b => C73.inertia L.B s b (one L k)) a := Diff.lin hi a
  have h3 := Diff.add h1 ((h2.sub (Diff.const (C73.inertia L.B s a (one L k)) a)))
  refine (h3.congr_near ?_).congr (fun b => rfl) fun b => ?_
  · have hc : Continuous fun b : Ode.Vec L.B.N => st.u + S b := continuous_const.add S.continuous
    filter_upwards [hc.continuousAt.eventually (near hU)] with b hb
    rw [hu, ← dot_one (L.residual st.time (st.u + S b) b) k, ← dot_one (L.residual st.time (st.u + S b) a) k, C75.C75_weak_form hm hn hf hF hl st.time _ b _ _ hb,
      C75.C75_weak_form hm hn hf hF hl st.time _ a _ _ hb]
    ring
  · have e1 := congrFun (C77_matrix hm hF A old old' st.time (st.u + S a) a b).1 k
    have e2 := congrFun (C77_matrix hm hF A old old' st.time (st.u + S a) a b).2 k
    have e3 : L.stiffAction A old st.time (st.u + S a) (S b) k = st.c0 * L.stiffAction A old st.time (st.u + S a) b k := by
      rw [← (C77_matrix hm hF A old old' st.time (st.u + S a) a (S b)).1, ← e1]
      unfold Elim.mulVec
      rw [mul_sum]
      exact sum_congr rfl fun m _ => by simp [hS]; ring
    rw [e3, ← e1, sub_zero, ← C77_mass_form hm old' a b (one L k), dot_one, ← e2, ← hu]
    unfold Elim.mulVec Loaded.dynamicMatrix
    rw [mul_sum, ← sum_add_distrib]
    exact sum_congr rfl fun m _ => by ring

/-- **C77, dynamics.**  The residual of the acceleration has the derivative `M + c0 K`, where `K` is taken at the predicted displacement. -/
theorem C77_dynamic (hm : C71.Meaning L.B.S s) (hn : C71.Nondegenerate L.B.S s) (hf : C73.Domains L.B) (hF : C75.Meaning L.F sF d) (hl : C75.AllGood L sF)
    (fixed : List (Fin L.B.N)) (st : Ode.State2 L.B.N) {A : Moduli d} {a : Ode.Vec L.B.N} (hA : Tangent L s A fun m => 1 * st.u m + st.c0 * a m) (old old' : Buffer ℝ) :
    ∃ D : Ode.Vec L.B.N →L[ℝ] Ode.Vec L.B.N, (∀ b k, D b k = if k ∈ fixed then 0 else Elim.mulVec (L.dynamicMatrix A old old' st a) b k) ∧
      HasFDerivAt (L.accResidual fixed st) D a ∧
      ∀ b, (∀ k ∈ fixed, b k = 0) → D b = Elim.mulVec (L.dynamicJacobian A old old' fixed st a).1 b := by
  have h : ∀ k, Diff (fun b => L.accResidual fixed st b k) (fun b => if k ∈ fixed then 0 else Elim.mulVec (L.dynamicMatrix A old old' st a) b k) a := fun k =>
    Diff.ite_zero fun _ => dynamic_diff hm hn hf hF hl st hA old old' k
  obtain ⟨D, h1, h2⟩ := Diff.pi (f' := fun b k => if k ∈ fixed then 0 else Elim.mulVec (L.dynamicMatrix A old old' st a) b k) h
  refine ⟨D, fun b k => by rw [h1], h2, fun b hb => ?_⟩
  rw [h1, Loaded.dynamicJacobian]
  exact (elim_free _ fixed b hb).symm

/-- **C77, the quasi-static residual.**  Zero on the fixed dofs, the stiffness on the others; on increments that keep the fixed dofs it is the eliminated matrix that the
linear solver gets, and with the entries that were taken out it is the whole stiffness. -/
theorem C77_static (hm : C71.Meaning L.B.S s) (hn : C71.Nondegenerate L.B.S s) (hf : C73.Domains L.B) (hF : C75.Meaning L.F sF d) (hl : C75.AllGood L sF)
    (fixed : List (Fin L.B.N)) (t : ℝ) {A : Moduli d} {u : Ode.Vec L.B.N} (hA : Tangent L s A u) (a : Ode.Vec L.B.N) (old : Buffer ℝ) :
    ∃ D : Ode.Vec L.B.N →L[ℝ] Ode.Vec L.B.N, (∀ w k, D w k = if k ∈ fixed then 0 else Elim.mulVec (L.stiffMatrix A old t u) w k) ∧
      HasFDerivAt (L.staticResidual fixed t a) D u ∧
      (∀ w, (∀ k ∈ fixed, w k = 0) → D w = Elim.mulVec (L.staticJacobian A old fixed t u).1 w) ∧
      ∀ k m, (L.staticJacobian A old fixed t u).1 k m + (L.staticJacobian A old fixed t u).2 k m = L.stiffMatrix A old t u k m := by
  have h : ∀ k, Diff (fun w => L.staticResidual fixed t a w k) (fun w => if k ∈ fixed then 0 else Elim.mulVec (L.stiffMatrix A old t u) w k) u := fun k =>
    Diff.ite_zero fun _ => (residual_diff hm hn hf hF hl t hA a old k).congr (fun _ => rfl) fun w => by rw [(C77_matrix hm hF A old old t u u w).1]
  obtain ⟨D, h1, h2⟩ := Diff.pi (f' := fun w k => if k ∈ fixed then 0 else Elim.mulVec (L.stiffMatrix A old t u) w k) h
  refine ⟨D, fun w k => by rw [h1], h2, fun w hw => ?_, fun k m => C26.C26_sum _ _ _ _⟩
  rw [h1, Loaded.staticJacobian]
  exact (elim_free _ fixed w hw).symm

end Derivative

/-! ## Symmetry -/

section Symmetric
variable {d : Dim} {L : Loaded d} {s sF : Shapes}

/-- Moduli with major symmetry at the gradients of `u`. -/
def Major (L : Loaded d) (s : Shapes) (A : Moduli d) (u : Ode.Vec L.B.N) : Prop := ∀ ee ∈ L.B.S.elements.zipIdx, ∀ Q < L.B.S.E.npts, ∀ i m j n,
  A (ee.2 * L.B.S.E.npts + Q) (C71.grad L.B.S s (L.B.nodal u) ee.1 Q) i m j n = A (ee.2 * L.B.S.E.npts + Q) (C71.grad L.B.S s (L.B.nodal u) ee.1 Q) j n i m

theorem stiffForm_symm {A : Moduli d} {u : Ode.Vec L.B.N} (h : Major L s A u) (w v : Ode.Vec L.B.N) : stiffForm L s A u w v = stiffForm L s A u v w := by
  refine C73.integral_congr fun ee hee Q hQ => ?_
  have e : ∀ F : Fin d.n → Fin d.n → Fin d.n → Fin d.n → ℝ, ∑ i, ∑ m, ∑ j, ∑ n, F i m j n = ∑ i, ∑ m, ∑ j, ∑ n, F j n i m := by
    intro F
    have := sum_comm (s := (univ : Finset (Fin d.n × Fin d.n))) (t := (univ : Finset (Fin d.n × Fin d.n))) (f := fun x y => F x.1 x.2 y.1 y.2)
    simpa only [Fintype.sum_prod_type] using this
  rw [e]
  exact sum_congr rfl fun i _ => sum_congr rfl fun m _ => sum_congr rfl fun j _ => sum_congr rfl fun n _ => by rw [h ee hee Q hQ]; ring

theorem follow_dead (h : C75.Dead L) (t : ℝ) (u w v : Ode.Vec L.B.N) : followForm L sF t u w v = 0 := by
  unfold followForm
  refine List.sum_eq_zero fun x hx => ?_
  obtain ⟨l, hl, rfl⟩ := List.mem_map.1 hx
  cases l with
  | traction l f => rfl
  | pressure l f =>
    have hoff : L.B.S.on = false := by
      cases hon : L.B.S.on with
      | false => rfl
      | true => exact absurd rfl (h _ hl hon l f)
    unfold follow C75.integral
    simp [hoff]

/-- An entry of a matrix from its action. -/
theorem entry (K : Elim.Mat L.B.N) (k m : Fin L.B.N) : K k m = ∑ j, Elim.mulVec K (one L m) j * one L k j := by
  rw [dot_one]
  simp [Elim.mulVec, one]

/-- **C77, symmetry.**  If the moduli have major symmetry and no load follows the body, then the stiffness and the matrix handed to the linear solver are symmetric; the mass
matrix always is. -/
theorem C77_symmetric (hm : C71.Meaning L.B.S s) (hn : C71.Nondegenerate L.B.S s) (hF : C75.Meaning L.F sF d) (hl : C75.AllGood L sF) (hD : C75.Dead L)
    (fixed : List (Fin L.B.N)) (st : Ode.State2 L.B.N) (t : ℝ) {A : Moduli d} (old old' : Buffer ℝ) (u a : Ode.Vec L.B.N) (k m : Fin L.B.N) :
    L.massMatrix old' a k m = L.massMatrix old' a m k ∧
    (Major L s A u → L.stiffMatrix A old t u k m = L.stiffMatrix A old t u m k ∧
      (L.staticJacobian A old fixed t u).1 k m = (L.staticJacobian A old fixed t u).1 m k) ∧
    (Major L s A (fun j => 1 * st.u j + st.c0 * a j) →
      (L.dynamicJacobian A old old' fixed st a).1 k m = (L.dynamicJacobian A old old' fixed st a).1 m k) := by
  have hM : ∀ k m, L.massMatrix old' a k m = L.massMatrix old' a m k := by
    intro k m
    rw [entry (L.massMatrix old' a) k m, entry (L.massMatrix old' a) m k, (C77_matrix hm hF A old old' t u a _).2, (C77_matrix hm hF A old old' t u a _).2, C77_mass_form hm, C77_mass_form hm,
      C73.inertia_symm]
  have hK : ∀ (t : ℝ) (u : Ode.Vec L.B.N), Major L s A u → ∀ k m, L.stiffMatrix A old t u k m = L.stiffMatrix A old t u m k := by
    intro t u h k m
    rw [entry (L.stiffMatrix A old t u) k m, entry (L.stiffMatrix A old t u) m k, (C77_matrix hm hF A old old' t u a _).1, (C77_matrix hm hF A old old' t u a _).1, C77_form hm hn hF hl,
      C77_form hm hn hF hl, follow_dead hD, follow_dead hD, stiffForm_symm h]
  refine ⟨hM k m, fun h => ⟨hK t u h k m, ?_⟩, fun h => ?_⟩
  · exact C26.C26_symmetric _ (hK t u h) fixed k m
  · refine C26.C26_symmetric _ (fun k m => ?_) fixed k m
    unfold Loaded.dynamicMatrix
    rw [hM k m, hK _ _ h k m]

end Symmetric

/-! ## Materials -/

section Materials
variable {n : ℕ}

/-- A function of the displacement gradient that is defined near `H` and differentiable there. -/
def Smooth (σ : M n → Option (M n)) (H : Fin n → Fin n → ℝ) : Prop :=
  (∀ᶠ G : Fin n → Fin n → ℝ in nhds H, (σ (Matrix.of G)).isSome) ∧ ∀ i j, DifferentiableAt ℝ (fun G : Fin n → Fin n → ℝ => (σ (Matrix.of G)).getD 0 i j) H

/-- The derivatives of the flux, as partial derivatives. -/
def partials {d : Dim} (S : Setup d) : Moduli d := fun p H i m j l =>
  fderiv ℝ (fun G : Fin d.n → Fin d.n → ℝ => (materialFlux (ops d) S.on (S.material p) (Matrix.of G)).getD 0 i m) H (Pi.single j (Pi.single l 1))

theorem basis_sum (G : Fin n → Fin n → ℝ) : G = ∑ j, ∑ l, G j l • (Pi.single j (Pi.single l 1) : Fin n → Fin n → ℝ) := by
  funext a b
  simp only [Finset.sum_apply, Pi.smul_apply, smul_eq_mul, Pi.single_apply]
  rw [sum_eq_single a, sum_eq_single b]
  · simp
  · intro l _ h
    simp [h.symm]
  · simp
  · intro j _ h
    refine sum_eq_zero fun l _ => ?_
    simp [h.symm]
  · simp

/-- Where the flux is smooth its partial derivatives are its derivative. -/
theorem C77_partials {d : Dim} {L : Loaded d} {s : Shapes} {u : Ode.Vec L.B.N} (h : ∀ ee ∈ L.B.S.elements.zipIdx, ∀ Q < L.B.S.E.npts,
    Smooth (materialFlux (ops d) L.B.S.on (L.B.S.material (ee.2 * L.B.S.E.npts + Q))) (C71.grad L.B.S s (L.B.nodal u) ee.1 Q)) : Tangent L s (partials L.B.S) u := by
  intro ee hee Q hQ
  obtain ⟨h1, h2⟩ := h ee hee Q hQ
  refine ⟨h1, fun i m => ⟨_, fun G => ?_, (h2 i m).hasFDerivAt⟩⟩
  conv_lhs => rw [basis_sum G]
  simp only [map_sum, map_smul, smul_eq_mul]
  exact sum_congr rfl fun j _ => sum_congr rfl fun l _ => mul_comm _ _

/-! ### Entrywise differentiable matrices -/

variable {V : Type} [NormedAddCommGroup V] [NormedSpace ℝ V]

def ED (F : V → M n) (x : V) : Prop := ∀ i j, DifferentiableAt ℝ (fun y => F y i j) x

theorem ED.const (C : M n) (x : V) : ED (fun _ => C) x := fun _ _ => differentiableAt_const _
theorem ED.add {F G : V → M n} {x : V} (hF : ED F x) (hG : ED G x) : ED (fun y => F y + G y) x := fun i j => (hF i j).add (hG i j)
theorem ED.sub {F G : V → M n} {x : V} (hF : ED F x) (hG : ED G x) : ED (fun y => F y - G y) x := fun i j => (hF i j).sub (hG i j)
theorem ED.transpose {F : V → M n} {x : V} (hF : ED F x) : ED (fun y => (F y)ᵀ) x := fun i j => hF j i
theorem ED.smul {c : V → ℝ} {F : V → M n} {x : V} (hc : DifferentiableAt ℝ c x) (hF : ED F x) : ED (fun y => c y • F y) x := fun i j => hc.mul (hF i j)
theorem ED.mul {F G : V → M n} {x : V} (hF : ED F x) (hG : ED G x) : ED (fun y => F y * G y) x := by
  intro i j
  simp only [Matrix.mul_apply]
  exact DifferentiableAt.fun_sum fun k _ => (hF i k).mul (hG k j)
theorem ED.trace {F : V → M n} {x : V} (hF : ED F x) : DifferentiableAt ℝ (fun y => (F y).trace) x := by
  simp only [Matrix.trace]
  exact DifferentiableAt.fun_sum fun k _ => hF k k
theorem ED.det {F : V → M n} {x : V} (hF : ED F x) : DifferentiableAt ℝ (fun y => (F y).det) x := by
  simp only [Matrix.det_apply']
  exact DifferentiableAt.fun_sum fun σ _ => DifferentiableAt.const_mul (HasFDerivAt.finsetProd fun k _ => (hF (σ k) k).hasFDerivAt).differentiableAt _
theorem ED.inv {F : V → M n} {x : V} (hF : ED F x) (h : (F x).det ≠ 0) : ED (fun y => (F y)⁻¹) x := by
  intro i j
  simp only [Matrix.inv_def, Matrix.smul_apply, smul_eq_mul, Ring.inverse_eq_inv', Matrix.adjugate_apply]
  refine (hF.det.inv h).mul (ED.det fun a b => ?_)
  by_cases hj : a = j
  · subst hj
    simp only [Matrix.updateRow_self]
    exact differentiableAt_const _
  · simp only [Matrix.updateRow_ne hj]
    exact hF a b

/-- The deformation gradient. -/
theorem deform (H : Fin n → Fin n → ℝ) : ED (fun G : Fin n → Fin n → ℝ => 1 + Matrix.of G) H := by
  refine (ED.const 1 H).add fun i j => ?_
  simp only [Matrix.of_apply]
  fun_prop

theorem smooth_of {σ : M n → Option (M n)} {H : Fin n → Fin n → ℝ} (F : (Fin n → Fin n → ℝ) → M n) (h : ∀ᶠ G : Fin n → Fin n → ℝ in nhds H, σ (Matrix.of G) = some (F G))
    (hF : ED F H) : Smooth σ H := by
  refine ⟨?_, fun i j => (hF i j).congr_of_eventuallyEq ?_⟩
  · filter_upwards [h] with G hG
    rw [hG]
    rfl
  · filter_upwards [h] with G hG
    rw [hG]
    rfl

theorem near_det {H : Fin n → Fin n → ℝ} (h : (1 + Matrix.of H).det ≠ 0) : ∀ᶠ G : Fin n → Fin n → ℝ in nhds H, (1 + Matrix.of G).det ≠ 0 :=
  (deform H).det.continuousAt.eventually_ne h

theorem near_pos {H : Fin n → Fin n → ℝ} (h : 0 < (1 + Matrix.of H).det) : ∀ᶠ G : Fin n → Fin n → ℝ in nhds H, 0 < (1 + Matrix.of G).det :=
  (deform H).det.continuousAt.eventually (lt_mem_nhds h)

/-- **C77, the functor is smooth where the material is**, if the deformation is invertible or geometric nonlinearities are off. -/
theorem C77_flux {d : Dim} (on : Bool) {σ : M d.n → Option (M d.n)} {H : Fin d.n → Fin d.n → ℝ} (hσ : Smooth σ H) (h : on = true → (1 + Matrix.of H).det ≠ 0) :
    Smooth (materialFlux (ops d) on σ) H := by
  cases on with
  | false =>
    refine smooth_of (fun G => (σ (Matrix.of G)).getD 0) ?_ hσ.2
    filter_upwards [hσ.1] with G hG
    obtain ⟨τ, hτ⟩ := Option.isSome_iff_exists.1 hG
    unfold materialFlux
    rw [hτ, Option.bind_some, C33.flux_eq (C71.ops_exact d)]
    rfl
  | true =>
    refine smooth_of (fun G => (1 + Matrix.of G).det • ((σ (Matrix.of G)).getD 0 * ((1 + Matrix.of G)⁻¹)ᵀ)) ?_ (ED.smul (deform H).det (ED.mul hσ.2 ((deform H).inv (h rfl)).transpose))
    filter_upwards [hσ.1, near_det (h rfl)] with G hG hd
    obtain ⟨τ, hτ⟩ := Option.isSome_iff_exists.1 hG
    unfold materialFlux
    rw [hτ, Option.bind_some, C33.flux_eq (C71.ops_exact d), if_pos rfl, if_neg hd, Option.getD_some]

/-- **C77, the materials**: linear isotropic everywhere, Saint Venant-Kirchhoff where the deformation is invertible, neo-Hookean where it preserves orientation. -/
theorem C77_materials (K G : ℝ) (H2 : Fin 2 → Fin 2 → ℝ) (H3 : Fin 3 → Fin 3 → ℝ) :
    Smooth (fun H => some (Mat.linearIsotropic K G H)) H2 ∧ Smooth (fun H => some (Mat.linearIsotropic K G H)) H3 ∧
    ((1 + Matrix.of H2).det ≠ 0 → Smooth (Mat.svk2 K G) H2) ∧ ((1 + Matrix.of H3).det ≠ 0 → Smooth (Mat.svk3 K G) H3) ∧
    (0 < (1 + Matrix.of H2).det → Smooth (Mat.nh2 K G) H2) ∧ (0 < (1 + Matrix.of H3).det → Smooth (Mat.nh3 K G) H3) := by
  have id : ∀ {n : ℕ} (H : Fin n → Fin n → ℝ), ED (fun G : Fin n → Fin n → ℝ => (Matrix.of G : M n)) H := fun H i j => by simp only [Matrix.of_apply]; fun_prop
  have lin : ∀ {n : ℕ} (H : Fin n → Fin n → ℝ), Smooth (fun H => some (Mat.linearIsotropic K G H)) H := by
    intro n H
    refine smooth_of (fun H => C31.linear (K - 2 / 3 * G) G (Matrix.of H)) (Filter.Eventually.of_forall fun H => by rw [C31.linearIsotropic_eq]) ?_
    unfold C31.linear
    exact ED.add (ED.smul ((id H).trace.const_mul _) (ED.const 1 H)) (ED.smul (differentiableAt_const _) ((id H).add (id H).transpose))
  have svk : ∀ {n : ℕ} (det : Mat ℝ n n → ℝ) (_ : ∀ A, det A = Matrix.det A) (H : Fin n → Fin n → ℝ), (1 + Matrix.of H).det ≠ 0 → Smooth (Mat.stVenantKirchhoff det K G) H := by
    intro n det hdet H h
    refine smooth_of (fun H => ((1 + Matrix.of H).det)⁻¹ • ((1 + Matrix.of H) * C31.svkS K G (Matrix.of H) * (1 + Matrix.of H)ᵀ)) ?_ ?_
    · filter_upwards [near_det h] with G' hG
      rw [C31.svk_eq det hdet, if_neg hG]
    · refine ED.smul ((deform H).det.inv h) (ED.mul (ED.mul (deform H) ?_) (deform H).transpose)
      have hE : ED (fun H : Fin n → Fin n → ℝ => Mat.greenStrain (Matrix.of H)) H := by
        simp only [C31.greenStrain_eq]
        exact ED.smul (differentiableAt_const _) ((ED.mul (deform H).transpose (deform H)).sub (ED.const 1 H))
      unfold C31.svkS
      exact ED.add (ED.smul (hE.trace.const_mul K) (ED.const 1 H)) (ED.smul (differentiableAt_const _) (hE.sub (ED.smul (by simpa only [div_eq_mul_inv] using hE.trace.mul_const _) (ED.const 1 H))))
  have nh : ∀ {n : ℕ} (det : Mat ℝ n n → ℝ) (_ : ∀ A, det A = (1 + A).det - 1) (H : Fin n → Fin n → ℝ), 0 < (1 + Matrix.of H).det → Smooth (Mat.neoHookean det K G) H := by
    intro n det hdet H h
    refine smooth_of (fun H => ((1 + Matrix.of H).det)⁻¹ • (((K - 2 / 3 * G) * Real.log (1 + Matrix.of H).det) • (1 : M n) + G • ((1 + Matrix.of H) * (1 + Matrix.of H)ᵀ - 1))) ?_ ?_
    · filter_upwards [near_pos h] with G' hG
      rw [C31.nh_eq det hdet, if_neg (not_le.2 hG)]
    · exact ED.smul ((deform H).det.inv h.ne') (ED.add (ED.smul (((deform H).det.log h.ne').const_mul _) (ED.const 1 H))
        (ED.smul (differentiableAt_const _) ((ED.mul (deform H) (deform H).transpose).sub (ED.const 1 H))))
  exact ⟨lin H2, lin H3, svk _ C33.exact2.det H2, svk _ C33.exact3.det H3, nh _ C31.det2' H2, nh _ C31.det3' H3⟩

/-- **C77, stored energy.**  If the flux is the derivative of an energy that is differentiable near `H`, then its derivative has major symmetry. -/
theorem C77_major {d : Dim} (on : Bool) {σ : M d.n → Option (M d.n)} {W : M d.n → ℝ} (hW : C71.Hyperelastic on σ W) {H : Fin d.n → Fin d.n → ℝ}
    (hs : Smooth (materialFlux (ops d) on σ) H) (hd : ∀ᶠ G : Fin d.n → Fin d.n → ℝ in nhds H, DifferentiableAt ℝ (fun G : Fin d.n → Fin d.n → ℝ => W (Matrix.of G)) G)
    {A : Fin d.n → Fin d.n → Fin d.n → Fin d.n → ℝ}
    (hA : ∀ i m, Diff (fun G : Fin d.n → Fin d.n → ℝ => (materialFlux (ops d) on σ (Matrix.of G)).getD 0 i m) (fun G => ∑ j, ∑ n, A i m j n * G j n) H) (i m j n : Fin d.n) :
    A i m j n = A j n i m := by
  choose D h1 h2 using hA
  let pr : Fin d.n → Fin d.n → (Fin d.n → Fin d.n → ℝ) →L[ℝ] ℝ := fun a b =>
    (ContinuousLinearMap.proj b : (Fin d.n → ℝ) →L[ℝ] ℝ).comp (ContinuousLinearMap.proj a : (Fin d.n → Fin d.n → ℝ) →L[ℝ] (Fin d.n → ℝ))
  have hpr : ∀ a b G, pr a b G = G a b := fun a b G => rfl
  let f' : (Fin d.n → Fin d.n → ℝ) → (Fin d.n → Fin d.n → ℝ) →L[ℝ] ℝ := fun G => ∑ a, ∑ b, (materialFlux (ops d) on σ (Matrix.of G)).getD 0 a b • pr a b
  let f'' : (Fin d.n → Fin d.n → ℝ) →L[ℝ] (Fin d.n → Fin d.n → ℝ) →L[ℝ] ℝ := ∑ a, ∑ b, (D a b).smulRight (pr a b)
  have e1 : HasFDerivAt f' f'' H := HasFDerivAt.fun_sum fun a _ => HasFDerivAt.fun_sum fun b _ => (h2 a b).smul_const (pr a b)
  have e2 : ∀ᶠ G in nhds H, HasFDerivAt (fun G : Fin d.n → Fin d.n → ℝ => W (Matrix.of G)) (f' G) G := by
    filter_upwards [hs.1, hd] with G hG hdG
    obtain ⟨P, hP⟩ := Option.isSome_iff_exists.1 hG
    have : fderiv ℝ (fun G : Fin d.n → Fin d.n → ℝ => W (Matrix.of G)) G = f' G := by
      ext V
      have hl : HasDerivAt (fun t : ℝ => G + t • V) V 0 := by
        simpa using ((hasDerivAt_id (0 : ℝ)).smul_const V).const_add G
      have k1 : HasDerivAt (fun t : ℝ => W (Matrix.of (G + t • V))) (fderiv ℝ (fun G : Fin d.n → Fin d.n → ℝ => W (Matrix.of G)) G V) 0 := by
        have h0 : HasFDerivAt (fun G : Fin d.n → Fin d.n → ℝ => W (Matrix.of G)) (fderiv ℝ (fun G : Fin d.n → Fin d.n → ℝ => W (Matrix.of G)) G) (G + (0 : ℝ) • V) := by
          rw [zero_smul, add_zero]
          exact hdG.hasFDerivAt
        exact h0.comp_hasDerivAt (0 : ℝ) hl
      have k2 := hW (fun t => Matrix.of (G + t • V)) (Matrix.of V) P (fun i j => by
        have := hasDerivAt_pi.1 (hasDerivAt_pi.1 hl i) j
        exact this) (by rw [zero_smul, add_zero]; exact hP)
      rw [k1.unique k2]
      simp only [f', _root_.sum_apply, smul_apply, hpr, hP, Option.getD_some, smul_eq_mul]
      rfl
    rw [← this]
    exact hdG.hasFDerivAt
  have e3 : ∀ V X : Fin d.n → Fin d.n → ℝ, f'' V X = ∑ a, ∑ b, (∑ j, ∑ n, A a b j n * V j n) * X a b := by
    intro V X
    simp only [f'', _root_.sum_apply, ContinuousLinearMap.smulRight_apply, smul_apply, hpr, h1, smul_eq_mul]
  have e4 : ∀ i m j n, f'' (Pi.single j (Pi.single n 1)) (Pi.single i (Pi.single m 1)) = A i m j n := by
    intro i m j n
    have hs : ∀ (F : Fin d.n → Fin d.n → ℝ) (i m : Fin d.n), ∑ a, ∑ b, F a b * (Pi.single i (Pi.single m 1) : Fin d.n → Fin d.n → ℝ) a b = F i m := by
      intro F i m
      rw [sum_eq_single i, sum_eq_single m]
      · simp
      · intro b _ h; simp [h]
      · simp
      · intro a _ h; simp [h]
      · simp
    rw [e3, hs, hs]
  rw [← e4 i m j n, ← e4 j n i m]
  exact second_derivative_symmetric_of_eventually e2 e1 _ _

/-- **C77, hyperelastic bodies.**  Where the stored energy is differentiable, the stiffness of a body of one hyperelastic material per point under dead loads is symmetric. -/
theorem C77_hyperelastic {d : Dim} {L : Loaded d} {s sF : Shapes} (hm : C71.Meaning L.B.S s) (hn : C71.Nondegenerate L.B.S s) (hF : C75.Meaning L.F sF d)
    (hl : C75.AllGood L sF) (hD : C75.Dead L) (fixed : List (Fin L.B.N)) (t : ℝ) (W : M d.n → ℝ) (hW : ∀ p, C71.Hyperelastic L.B.S.on (L.B.S.material p) W) {A : Moduli d}
    {u : Ode.Vec L.B.N} (hA : Tangent L s A u)
    (hd : ∀ ee ∈ L.B.S.elements.zipIdx, ∀ Q < L.B.S.E.npts, ∀ᶠ G : Fin d.n → Fin d.n → ℝ in nhds (C71.grad L.B.S s (L.B.nodal u) ee.1 Q : Fin d.n → Fin d.n → ℝ),
      DifferentiableAt ℝ (fun G : Fin d.n → Fin d.n → ℝ => W (Matrix.of G)) G) (old : Buffer ℝ) (k m : Fin L.B.N) :
    L.stiffMatrix A old t u k m = L.stiffMatrix A old t u m k ∧ (L.staticJacobian A old fixed t u).1 k m = (L.staticJacobian A old fixed t u).1 m k := by
  refine (C77_symmetric hm hn hF hl hD fixed ⟨t, 0, 0, 0, 0, 0⟩ t old old u 0 k m).2.1 fun ee hee Q hQ i m j n => ?_
  obtain ⟨h1, h2⟩ := hA ee hee Q hQ
  exact C77_major L.B.S.on (hW _) ⟨h1, fun i j => by obtain ⟨D, _, h⟩ := h2 i j; exact h.differentiableAt⟩ (hd ee hee Q hQ) h2 i m j n

/-- The stored energies of the two hyperelastic models are differentiable near every deformation that preserves orientation. -/
theorem C77_energies (K G : ℝ) {n : ℕ} (H : Fin n → Fin n → ℝ) (h : 0 < (1 + Matrix.of H).det) :
    (∀ᶠ X : Fin n → Fin n → ℝ in nhds H, DifferentiableAt ℝ (fun X : Fin n → Fin n → ℝ => C33.energyNH K G (Matrix.of X)) X) ∧
    ∀ X, DifferentiableAt ℝ (fun X : Fin n → Fin n → ℝ => C33.energySVK K G (Matrix.of X)) X := by
  constructor
  · filter_upwards [near_pos h] with X hX
    unfold C33.energyNH
    have h1 := (ED.mul (deform X) (deform X).transpose).trace
    have h2 := (deform X).det.log hX.ne'
    exact (((h1.sub_const _).const_mul _).sub (h2.const_mul _)).add ((h2.pow 2).const_mul _)
  · intro X
    unfold C33.energySVK
    have hE : ED (fun H : Fin n → Fin n → ℝ => (1 / 2 : ℝ) • ((1 + Matrix.of H)ᵀ * (1 + Matrix.of H) - 1)) X :=
      ED.smul (differentiableAt_const _) ((ED.mul (deform X).transpose (deform X)).sub (ED.const 1 X))
    have h1 := hE.trace
    have h2 := (ED.mul hE hE).trace
    simp only [div_eq_mul_inv (_ ^ 2 : ℝ)]
    exact ((h1.pow 2).const_mul _).add ((h2.sub ((h1.pow 2).mul_const _)).const_mul _)

end Materials

/-! ## Example: the square of C71 of neo-Hookean material under gravity, a traction and a pressure that follows it -/

section Example

def exBody : Body .two where
  S := { C73.exMesh with on := true, material := fun _ => Mat.nh2 2 1 }
  forces := [C73.exGravity]
  N := 10
  num := (finProdFinEquiv : Fin 5 × Fin 2 ≃ Fin (5 * 2))

def exLoaded (loads : List (Load .two)) : Loaded .two := ⟨exBody, C75.exFaces, loads⟩

theorem ex_good (loads : List (Load .two)) (h : ∀ l ∈ loads, l = C75.exTraction ∨ l = C75.exHold ∨ l = C75.exPressure) : C75.AllGood (exLoaded loads) C75.exSF := by
  intro l hl
  refine C75.ex_faces_good _ ?_
  rcases h l hl with rfl | rfl | rfl <;> simp [C75.exTraction, C75.exHold, C75.exPressure, Load.elements]

/-- Wherever the deformation preserves orientation, the material is differentiable. -/
theorem ex_tangent (loads : List (Load .two)) (u : Ode.Vec 10) (h : ∀ e Q, 0 < (1 + C71.grad exBody.S C72.exShapes (exBody.nodal u) e Q).det) :
    Tangent (exLoaded loads) C72.exShapes (partials exBody.S) u :=
  C77_partials (L := exLoaded loads) fun ee _ Q _ =>
    C77_flux (d := .two) true ((C77_materials 2 1 (C71.grad exBody.S C72.exShapes (exBody.nodal u) ee.1 Q) 0).2.2.2.2.1 (h ee.1 Q)) fun _ => (h ee.1 Q).ne'

theorem ex_rest (e Q : ℕ) : 0 < (1 + C71.grad exBody.S C72.exShapes (exBody.nodal 0) e Q).det := by
  have : C71.grad exBody.S C72.exShapes (exBody.nodal 0) e Q = 0 := by
    have h0 : C71.parGrad exBody.S C72.exShapes (exBody.nodal 0) e Q = 0 := by
      funext i k
      simp [C71.parGrad, Body.nodal]
    rw [C71.grad, h0, Matrix.zero_mul]
  rw [this, add_zero, Matrix.det_one]
  exact one_pos

theorem ex_domains : C73.Domains exBody := by
  intro f hf e he
  rw [List.mem_singleton.1 hf] at he
  have : e = 0 ∨ e = 1 ∨ e = 2 ∨ e = 3 := by simpa [C73.exGravity] using he
  change e < 4
  omega

theorem ex_meaning : C71.Meaning exBody.S C72.exShapes :=
  ⟨(C51.C51_simplex C72.tri3).1, (C51.C51_simplex C72.tri3).2, (C51.C51_simplex C72.tri3).1, rfl, by simp [exBody, C73.exMesh]⟩

theorem ex_nondegenerate : C71.Nondegenerate exBody.S C72.exShapes := C73.ex_nondegenerate []

/-- The derivative of the residual at rest, with a pressure that follows the body. -/
example (t : ℝ) (a : Ode.Vec 10) (old : Buffer ℝ) : ∃ D : Ode.Vec 10 →L[ℝ] Ode.Vec 10,
    (∀ w, D w = Elim.mulVec ((exLoaded [C75.exTraction, C75.exPressure]).stiffMatrix (partials exBody.S) old t 0) w) ∧
    HasFDerivAt (fun w => (exLoaded [C75.exTraction, C75.exPressure]).residual t w a) D 0 :=
  C77_derivative (L := exLoaded [C75.exTraction, C75.exPressure]) ex_meaning ex_nondegenerate ex_domains C75.ex_faces
    (ex_good _ (by simp)) t (ex_tangent _ 0 ex_rest) a old

/-- Under a traction alone the stiffness is symmetric at rest. -/
example (t : ℝ) (old : Buffer ℝ) (k m : Fin 10) :
    (exLoaded [C75.exTraction]).stiffMatrix (partials exBody.S) old t 0 k m = (exLoaded [C75.exTraction]).stiffMatrix (partials exBody.S) old t 0 m k := by
  refine (C77_hyperelastic (L := exLoaded [C75.exTraction]) ex_meaning ex_nondegenerate C75.ex_faces (ex_good _ (by simp)) ?_ [] t
    (C33.energyNH 2 1) (fun _ => (C71.C71_hyperelastic 2 1).1) (ex_tangent _ 0 ex_rest) (fun ee _ Q _ => (C77_energies 2 1 _ (ex_rest ee.1 Q)).1) old k m).1
  intro l hl _ e f
  rw [List.mem_singleton.1 (show l ∈ [C75.exTraction] from hl)]
  exact nofun

end Example

end Serac.C77
