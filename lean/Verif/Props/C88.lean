import Verif.Model.ShapeTangent
import Verif.Proofs.StrictDerivative
import Verif.Props.C79
import Verif.Props.C84
import Verif.Props.C87
/-!
# C88: shape sensitivities are gradients with respect to the positions of the nodes
-/

noncomputable section
namespace Serac.C88
open Serac.Tensor Serac.Transform Serac.Kernels Serac.Solid Serac.Loads Serac.Shaped Serac.Mat Serac.Deriv Serac.Piola Finset
open scoped Matrix

attribute [local instance] Matrix.normedAddCommGroup Matrix.normedSpace

/-! ## Dual numbers -/

section Duals
variable {V : Type} [NormedAddCommGroup V] [NormedSpace ℝ V]

theorem sd_det {d : Dim} {f f' : V → Mat ℝ d.n d.n} {x : V} (h : SD f f' x) : SD (fun y => det d (f y)) (fun v => detD d (f x) (f' v)) x := by
  cases d
  · exact ((h.entry 0 0).mul (h.entry 1 1)).sub ((h.entry 0 1).mul (h.entry 1 0))
  · exact ((((((((h.entry 0 0).mul (h.entry 1 1)).mul (h.entry 2 2)).add (((h.entry 0 1).mul (h.entry 1 2)).mul (h.entry 2 0))).add
      (((h.entry 0 2).mul (h.entry 1 0)).mul (h.entry 2 1))).sub (((h.entry 0 0).mul (h.entry 1 2)).mul (h.entry 2 1))).sub
      (((h.entry 0 1).mul (h.entry 1 0)).mul (h.entry 2 2))).sub (((h.entry 0 2).mul (h.entry 1 1)).mul (h.entry 2 0)))

theorem sd_inv {n : ℕ} {f f' : V → Mat ℝ n n} {x : V} (h : SD f f' x) (h0 : (f x).det ≠ 0) : SD (fun y => (f y)⁻¹) (fun v => invD (f x)⁻¹ (f' v)) x := by
  have hid : C84.EC (fun A : Mat ℝ n n => A) (f x) := fun i j =>
    (ContinuousLinearMap.proj (R := ℝ) (φ := fun _ : Fin n => ℝ) j ∘L ContinuousLinearMap.proj (R := ℝ) (φ := fun _ : Fin n => Fin n → ℝ) i).contDiff.contDiffAt
  have key : SD (fun A : Mat ℝ n n => A⁻¹) (fun B => invD (f x)⁻¹ B) (f x) := by
    refine SD.mat fun i j => SD.of_diff (hid.inv h0 i j) ⟨_, fun B => ?_, hasFDerivAt_inv (fun A : Mat ℝ n n => A)
      (fun k l => ContinuousLinearMap.proj (R := ℝ) (φ := fun _ : Fin n => ℝ) l ∘L ContinuousLinearMap.proj (R := ℝ) (φ := fun _ : Fin n => Fin n → ℝ) k) (f x)
      (fun k l => (ContinuousLinearMap.proj (R := ℝ) (φ := fun _ : Fin n => ℝ) l ∘L
        ContinuousLinearMap.proj (R := ℝ) (φ := fun _ : Fin n => Fin n → ℝ) k).hasFDerivAt) h0 i j⟩
    simp only [neg_apply, _root_.sum_apply, smul_apply, smul_eq_mul, invD]
    congr 1
    refine sum_congr rfl fun k _ => sum_congr rfl fun l _ => ?_
    change _ * B k l = _
    ring
  exact key.chain h

theorem sd_cross {d : Dim} {f f' : V → Mat ℝ d.n (faceDim d)} {x : V} (h : SD f f' x) : SD (fun y => crossAt d (f y)) (fun v => crossD d (f x) (f' v)) x := by
  cases d
  · refine SD.pi fun i => ?_
    revert i
    change ∀ i : Fin 2, _
    intro i
    fin_cases i
    · exact h.entry 1 0
    · exact (h.entry 0 0).neg
  · refine SD.pi fun i => ?_
    revert i
    change ∀ i : Fin 3, _
    intro i
    fin_cases i
    · exact ((h.entry 1 0).mul (h.entry 2 1)).sub ((h.entry 2 0).mul (h.entry 1 1))
    · exact ((h.entry 2 0).mul (h.entry 0 1)).sub ((h.entry 0 0).mul (h.entry 2 1))
    · exact ((h.entry 0 0).mul (h.entry 1 1)).sub ((h.entry 1 0).mul (h.entry 0 1))

theorem sqNorm_eq {n : ℕ} (A : Vec ℝ n) : sqNormV A = ∑ i, A i * A i := by
  unfold sqNormV
  rw [accum_eq, zero_add]

theorem sd_norm {n : ℕ} {f f' : V → Vec ℝ n} {x : V} (h : SD f f' x) (h0 : Transform.norm (f x) ≠ 0) :
    SD (fun y => Transform.norm (f y)) (fun v => normD (f x) (f' v)) x := by
  have h1 : SD (fun y => sqNormV (f y)) (fun v => ∑ i, (f' v i * f x i + f x i * f' v i)) x :=
    (SD.sum univ fun i _ => (h.at i).mul (h.at i)).congr (fun y => sqNorm_eq _) fun _ => rfl
  exact h1.sqrt fun e => h0 (by unfold Transform.norm; rw [e, Real.sqrt_zero])

end Duals

/-! ## One point -/

section Point
variable {d : Dim} {c : ℕ}

/-- Spec: the arguments of an integrand on the displaced element. -/
def seen (X : Point d) (z : Arg d c) : Arg d c :=
  ((X.1 + z.1.1, X.2 + z.1.2), (z.2.1.1, z.2.1.2 * (X.2 + z.1.2)⁻¹), (z.2.2.1, z.2.2.2 * (X.2 + z.1.2)⁻¹))

/-- Spec: `D` is the derivative of the integrand at `y`, which is defined near `y`; an integrand without flux has none. -/
structure Slope (qf : Integrand d c) (D : Arg d c → Field d c) (y : Arg d c) : Prop where
  some : ∀ᶠ y' in nhds y, (qf y'.1 y'.2.1 y'.2.2).isSome
  deriv : SD (fun y' : Arg d c => (qf y'.1 y'.2.1 y'.2.2).getD (0, 0)) D y

/-- The correction of the wrapper. -/
def corr (X : Point d) (z : Arg d c) : Mat ℝ d.n d.n := 1 + z.1.2 * X.2⁻¹

theorem corr_mul {X : Point d} (hJ : X.2.det ≠ 0) (z : Arg d c) : corr X z * X.2 = X.2 + z.1.2 := by
  unfold corr
  rw [Matrix.add_mul, Matrix.one_mul, Matrix.mul_assoc, Matrix.nonsing_inv_mul _ hJ.isUnit, Matrix.mul_one]

theorem corr_det {X : Point d} (hJ : X.2.det ≠ 0) (z : Arg d c) : (corr X z).det ≠ 0 ↔ (X.2 + z.1.2).det ≠ 0 := by
  rw [← corr_mul hJ z, Matrix.det_mul]
  exact ⟨fun h => mul_ne_zero h hJ, fun h => left_ne_zero_of_mul h⟩

/-- The arguments as the wrapper computes them. -/
def codeArgs (X : Point d) (z : Arg d c) : Arg d c :=
  ((X.1 + z.1.1, X.2 + z.1.2 * X.2⁻¹ * X.2), (z.2.1.1, z.2.1.2 * X.2⁻¹ * (corr X z)⁻¹), (z.2.2.1, z.2.2.2 * X.2⁻¹ * (corr X z)⁻¹))

theorem codeArgs_eq {X : Point d} (hJ : X.2.det ≠ 0) (z : Arg d c) : codeArgs X z = seen X z := by
  unfold codeArgs seen
  rw [← corr_mul hJ z, Matrix.mul_inv_rev, Matrix.mul_assoc z.1.2, Matrix.nonsing_inv_mul _ hJ.isUnit, Matrix.mul_one, corr_mul hJ z]
  simp only [Matrix.mul_assoc]

/-- `shapedPoint` in formulas. -/
theorem shaped_eq (qf : Integrand d c) {X : Point d} (hJ : X.2.det ≠ 0) (z : Arg d c) (hK : (corr X z).det ≠ 0) :
    shapedPoint qf X z.1 z.2.1 z.2.2 = (qf (codeArgs X z).1 (codeArgs X z).2.1 (codeArgs X z).2.2).map fun r =>
      (fun i => r.1 i * det d (corr X z) * det d X.2ᵀ, fun i j => (smulM (r.2 * (corr X z)⁻¹ᵀ) (det d (corr X z)) * X.2ᵀ⁻¹) i j * det d X.2ᵀ) := by
  have hT : Matrix.det (X.2ᵀ : Mat ℝ d.n d.n) ≠ 0 := by rwa [Matrix.det_transpose]
  unfold shapedPoint parentToPhysicalH1 physicalToParentH1 mkShapeCorrection
  simp only [loadJ_store, loadJT_store, inv_eq d X.2 hJ, inv_eq d X.2ᵀ hT, Option.map_some, Option.bind_some, identity_eq, addM_eq, dot_eq]
  rw [inv_eq d (1 + z.1.2 * X.2⁻¹) hK, Option.map_some, Option.bind_some]
  unfold ShapeCorrection.trialH1 ShapeCorrection.testH1 shapedPosition codeArgs
  simp only [dot_eq, addV_eq, addM_eq, transpose_eq]
  unfold corr
  cases qf (X.1 + z.1.1, X.2 + z.1.2 * X.2⁻¹ * X.2) (z.2.1.1, z.2.1.2 * X.2⁻¹ * (1 + z.1.2 * X.2⁻¹)⁻¹) (z.2.2.1, z.2.2.2 * X.2⁻¹ * (1 + z.1.2 * X.2⁻¹)⁻¹) <;> rfl

theorem sd_proj1 (z : Arg d c) : SD (fun z : Arg d c => z.1) (fun w => w.1) z := SD.linear (ContinuousLinearMap.fst ℝ _ _) z
theorem sd_proj2 (z : Arg d c) : SD (fun z : Arg d c => z.2) (fun w => w.2) z := SD.linear (ContinuousLinearMap.snd ℝ _ _) z

theorem sd_corr (X : Point d) (z : Arg d c) : SD (corr X) (fun w => w.1.2 * X.2⁻¹) z :=
  (((sd_proj1 z).snd.matmul (SD.const X.2⁻¹ z)).const_add 1).congr' fun w => by simp

theorem near_corr {X : Point d} {z : Arg d c} (hK : (corr X z).det ≠ 0) : ∀ᶠ z' in nhds z, (corr X z').det ≠ 0 := by
  have h := (sd_det (sd_corr X z)).continuousAt
  simp only [det_eq] at h
  exact h.eventually_ne hK

theorem sd_args (X : Point d) {z : Arg d c} (hK : (corr X z).det ≠ 0) : SD (codeArgs X) (fun w =>
    ((w.1.1, w.1.2 * X.2⁻¹ * X.2), (w.2.1.1, w.2.1.2 * X.2⁻¹ * (corr X z)⁻¹ + z.2.1.2 * X.2⁻¹ * invD (corr X z)⁻¹ (w.1.2 * X.2⁻¹)),
      (w.2.2.1, w.2.2.2 * X.2⁻¹ * (corr X z)⁻¹ + z.2.2.2 * X.2⁻¹ * invD (corr X z)⁻¹ (w.1.2 * X.2⁻¹)))) z := by
  have hi := sd_inv (sd_corr X z) hK
  refine SD.prod (SD.prod ((sd_proj1 z).fst.const_add X.1) (((((sd_proj1 z).snd).matmul_const _).matmul_const _).const_add X.2))
    (SD.prod (SD.prod (sd_proj2 z).fst.fst ?_) (SD.prod (sd_proj2 z).snd.fst ?_))
  · exact ((sd_proj2 z).fst.snd.matmul_const _).matmul hi
  · exact ((sd_proj2 z).snd.snd.matmul_const _).matmul hi

/-- What the dual numbers carry at a point is the derivative of what the point contributes. -/
theorem point_deriv {qf : Integrand d c} {D : Arg d c → Arg d c → Field d c} {X : Point d} {z : Arg d c} (hJ : X.2.det ≠ 0) (hF : (X.2 + z.1.2).det ≠ 0)
    (h : Slope qf (D (seen X z)) (seen X z)) :
    SD (fun z' => (shapedPoint qf X z'.1 z'.2.1 z'.2.2).getD (0, 0)) (pointTangent qf D X z) z := by
  have hK : (corr X z).det ≠ 0 := (corr_det hJ z).2 hF
  have hT : Matrix.det (X.2ᵀ : Mat ℝ d.n d.n) ≠ 0 := by rwa [Matrix.det_transpose]
  have ha := sd_args X hK
  rw [← codeArgs_eq hJ z] at h
  have hr := h.deriv.chain ha
  have hk := sd_det (sd_corr X z)
  have hi := (sd_inv (sd_corr X z) hK).transpose
  have hs : SD (fun z' => ((fun i => ((qf (codeArgs X z').1 (codeArgs X z').2.1 (codeArgs X z').2.2).getD (0, 0)).1 i * det d (corr X z') * det d X.2ᵀ,
      fun i j => (smulM (((qf (codeArgs X z').1 (codeArgs X z').2.1 (codeArgs X z').2.2).getD (0, 0)).2 * (corr X z')⁻¹ᵀ) (det d (corr X z')) * X.2ᵀ⁻¹) i j * det d X.2ᵀ) : Field d c)) _ z :=
    SD.prod (SD.pi fun i => ((hr.fst.at i).mul hk).mul_const (det d X.2ᵀ)) (SD.mat fun i j =>
      (((SD.mat fun i j => ((hr.snd.matmul hi).entry i j).mul hk).matmul_const X.2ᵀ⁻¹).entry i j).mul_const (det d X.2ᵀ))
  refine (hs.congr_near ?_).congr' fun w => ?_
  · filter_upwards [near_corr hK, ha.continuousAt.eventually h.some] with z' h1 h2
    rw [shaped_eq qf hJ z' h1]
    obtain ⟨r, hr⟩ := Option.isSome_iff_exists.1 h2
    rw [hr]
    rfl
  · unfold pointTangent
    simp only [inv_eq d X.2 hJ, Option.getD_some, transpose_eq, inv_eq d X.2ᵀ hT, identity_eq, addM_eq, dot_eq, shapedPosition, addV_eq]
    rw [inv_eq d (1 + z.1.2 * X.2⁻¹) hK]
    simp only [Option.getD_some]
    rfl

/-- Spec: the same on a face. -/
def seenF (X : FacePoint d) (z : FaceArg d c) : FaceArg d c := ((X.1 + z.1.1, X.2 + z.1.2), z.2)

structure SlopeF (qf : FaceArg d c → Option (Vec ℝ c)) (D : FaceArg d c → Vec ℝ c) (y : FaceArg d c) : Prop where
  some : ∀ᶠ y' in nhds y, (qf y').isSome
  deriv : SD (fun y' => (qf y').getD 0) D y

theorem face_deriv {qf : FaceArg d c → Option (Vec ℝ c)} {D : FaceArg d c → FaceArg d c → Vec ℝ c} {X : FacePoint d} {z : FaceArg d c}
    (hX : Transform.norm (crossAt d X.2) ≠ 0) (hF : Transform.norm (crossAt d (X.2 + z.1.2)) ≠ 0) (h : SlopeF qf (D (seenF X z)) (seenF X z)) :
    SD (fun z' => (facePoint qf X z').getD 0) (faceTangent qf D X z) z := by
  have hy : SD (fun z' : FaceArg d c => seenF X z') (fun w => w) z :=
    SD.prod (SD.prod ((SD.linear (ContinuousLinearMap.fst ℝ _ _) z).fst.const_add X.1) ((SD.linear (ContinuousLinearMap.fst ℝ _ _) z).snd.const_add X.2))
      (SD.linear (ContinuousLinearMap.snd ℝ (FacePoint d) (FaceField d c)) z)
  have hr := h.deriv.chain hy
  have hn := sd_norm (sd_cross hy.fst.snd) hF
  refine ((SD.pi fun i => ((hr.at i).mul (hn.div_const (Transform.norm (crossAt d X.2)))).mul_const (Transform.norm (crossAt d X.2))).congr_near ?_).congr' fun w => ?_
  · filter_upwards [hy.continuousAt.eventually h.some] with z' h2
    unfold facePoint
    simp only [addV_eq, addM_eq]
    change (qf (seenF X z')).isSome at h2
    obtain ⟨r, hr⟩ := Option.isSome_iff_exists.1 h2
    change ((qf (seenF X z')).bind _).getD 0 = fun i => (qf (seenF X z')).getD 0 i * _ * _
    rw [hr, Option.bind_some, if_neg hX]
    rfl
  · unfold faceTangent
    simp only [addV_eq, addM_eq]
    rfl

end Point

/-! ## Kernels -/

section Kernels
variable {test trial : Elem ℝ} {phi phi' : ℕ → ℕ → ℝ} {dphi dphi' : ℕ → ℕ → ℕ → ℝ} {wt : ℕ → ℝ} {c m : ℕ} {T : Type}

/-- The element matrices of several integrals times a vector are their actions. -/
theorem fold_matrix (h : C51.Test test phi dphi wt) (h' : C51.Trial trial phi' dphi') (hc : 0 < c) (hd : 0 < test.dim) (hz : test.dim = trial.dim) (l : List T) (z : T → Shape)
    (D : T → Buffer ℝ) (el : T → List ℕ) (dU dR dK : ℕ → ℝ) (e t : ℕ) (ht : t < c * test.ndof) :
    l.foldl (fun r T => actionKernel test trial c m (z T) (D T) (el T) dU r) dR (e * (c * test.ndof) + t) - dR (e * (c * test.ndof) + t) =
      ∑ b ∈ range (m * trial.ndof), (l.foldl (fun K T => gradientKernel test trial c m (z T) (D T) (el T) K) dK ((e * (m * trial.ndof) + b) * (c * test.ndof) + t) -
        dK ((e * (m * trial.ndof) + b) * (c * test.ndof) + t)) * dU (e * (m * trial.ndof) + b) := by
  induction l generalizing dR dK with
  | nil => simp
  | cons a l ih =>
    rw [List.foldl_cons, List.foldl_cons]
    have h1 := ih (actionKernel test trial c m (z a) (D a) (el a) dU dR) (gradientKernel test trial c m (z a) (D a) (el a) dK)
    have h2 := C51.C51_matrix h h' c m hc hd (z a) (Or.inl hz) (D a) (el a) dU dR dK e t ht
    rw [← sub_add_sub_cancel, h1, h2, ← sum_add_distrib]
    exact sum_congr rfl fun b _ => by ring

/-- Assembled element matrices times a vector. -/
theorem assembleQ_mul {ndof ndof' ne nn nn' : ℕ} (conn : ℕ → ℕ → Fin nn) (conn' : ℕ → ℕ → Fin nn') (mem dK : ℕ → ℝ) (v : Fin nn' → Vec ℝ m) (n : Fin nn) (i : Fin c)
    (hm : ∀ e, ∀ a < ndof, mem (e * (c * ndof) + (i * ndof + a)) =
      ∑ b ∈ range (m * ndof'), dK ((e * (m * ndof') + b) * (c * ndof) + (i * ndof + a)) * gatherE ndof' conn' v (e * (m * ndof') + b)) :
    scatterE ndof ne conn mem n i = ∑ n', ∑ j, assembleQ ndof ndof' ne conn conn' dK (n, i) (n', j) * v n' j := by
  unfold scatterE assembleQ
  have hm' : ∀ e, ∀ a ∈ range ndof, mem (e * (c * ndof) + (i * ndof + a)) =
      ∑ b ∈ range ndof', ∑ j : Fin m, dK ((e * (m * ndof') + (j * ndof' + b)) * (c * ndof) + (i * ndof + a)) * v (conn' e b) j := by
    intro e a ha
    rw [hm e a (mem_range.1 ha), C42.sum_flat, ← Fin.sum_univ_eq_sum_range
      (fun j => ∑ J ∈ range ndof', dK ((e * (m * ndof') + (j * ndof' + J)) * (c * ndof) + (i * ndof + a)) * gatherE ndof' conn' v (e * (m * ndof') + (j * ndof' + J))) m, sum_comm]
    exact sum_congr rfl fun b hb => sum_congr rfl fun j _ => by rw [C71.gather_at conn' v e j (mem_range.1 hb)]
  rw [sum_congr rfl fun e _ => sum_congr rfl fun a ha => by rw [hm' e a ha]]
  simp only [sum_mul]
  have e1 : ∀ n' : Fin nn', ∑ j : Fin m, ∑ e ∈ range ne, ∑ a ∈ range ndof, ∑ b ∈ range ndof',
      (if conn e a = n ∧ conn' e b = n' then dK ((e * (m * ndof') + (j * ndof' + b)) * (c * ndof) + (i * ndof + a)) else 0) * v n' j =
      ∑ e ∈ range ne, ∑ a ∈ range ndof, ∑ b ∈ range ndof', ∑ j : Fin m, (if conn e a = n ∧ conn' e b = n' then
        dK ((e * (m * ndof') + (j * ndof' + b)) * (c * ndof) + (i * ndof + a)) * v n' j else 0) := by
    intro n'
    rw [sum_comm]
    refine sum_congr rfl fun e _ => ?_
    rw [sum_comm]
    refine sum_congr rfl fun a _ => ?_
    rw [sum_comm]
    exact sum_congr rfl fun b _ => sum_congr rfl fun j _ => by rw [ite_mul, zero_mul]
  simp only [e1]
  refine Eq.symm ?_
  rw [sum_comm]
  refine sum_congr rfl fun e _ => ?_
  rw [sum_comm]
  refine sum_congr rfl fun a _ => ?_
  rw [sum_comm]
  by_cases hn : conn e a = n
  · rw [if_pos hn]
    refine sum_congr rfl fun b _ => ?_
    rw [sum_comm]
    exact sum_congr rfl fun j _ => by simp [hn]
  · simp [hn]

theorem div_idx {ndof : ℕ} (i : Fin c) {a : ℕ} (ha : a < ndof) : ((i : ℕ) * ndof + a) / ndof = i ∧ ((i : ℕ) * ndof + a) % ndof = a := by
  have h0 : 0 < ndof := by omega
  constructor
  · rw [mul_comm, Nat.mul_add_div h0, Nat.div_eq_of_lt ha, add_zero]
  · rw [mul_comm, Nat.mul_add_mod, Nat.mod_eq_of_lt ha]

/-- What sources and fluxes at the points add to an entry of the element vector. -/
def summed (test : Elem ℝ) (phi : ℕ → ℕ → ℝ) (dphi : ℕ → ℕ → ℕ → ℝ) (wt : ℕ → ℝ) (e : ℕ) (el : List ℕ) (src : ℕ × ℕ → ℕ → ℝ) (flx : ℕ × ℕ → ℕ → ℕ → ℝ) (a : ℕ) : ℝ :=
  (el.zipIdx.map fun ee => if ee.1 = e then C51.weigh test phi dphi wt (src ee) (flx ee) a else 0).sum

theorem summed_congr {e : ℕ} {el : List ℕ} {src src' : ℕ × ℕ → ℕ → ℝ} {flx flx' : ℕ × ℕ → ℕ → ℕ → ℝ} {a : ℕ}
    (h1 : ∀ ee ∈ el.zipIdx, ∀ Q < test.npts, src ee Q = src' ee Q) (h2 : ∀ ee ∈ el.zipIdx, ∀ Q < test.npts, ∀ k < test.dim, flx ee Q k = flx' ee Q k) :
    summed test phi dphi wt e el src flx a = summed test phi dphi wt e el src' flx' a := by
  unfold summed
  congr 1
  refine List.map_congr_left fun ee hee => ?_
  split_ifs
  · unfold C51.weigh
    refine sum_congr rfl fun Q hQ => ?_
    rw [h1 ee hee Q (mem_range.1 hQ), sum_congr rfl fun k hk => by rw [h2 ee hee Q (mem_range.1 hQ) k (mem_range.1 hk)]]
  · rfl

theorem summed_add {e : ℕ} {el : List ℕ} {src src' : ℕ × ℕ → ℕ → ℝ} {flx flx' : ℕ × ℕ → ℕ → ℕ → ℝ} {a : ℕ} :
    summed test phi dphi wt e el (fun ee Q => src ee Q + src' ee Q) (fun ee Q k => flx ee Q k + flx' ee Q k) a =
      summed test phi dphi wt e el src flx a + summed test phi dphi wt e el src' flx' a := by
  unfold summed
  rw [← List.sum_map_add]
  congr 1
  refine List.map_congr_left fun ee hee => ?_
  split_ifs
  · unfold C51.weigh
    rw [← sum_add_distrib]
    refine sum_congr rfl fun Q _ => ?_
    simp only [add_mul, mul_add, sum_add_distrib]
    ring
  · rw [add_zero]

theorem summed_sd {V : Type} [NormedAddCommGroup V] [NormedSpace ℝ V] {x : V} {e : ℕ} {el : List ℕ} {src src' : V → ℕ × ℕ → ℕ → ℝ} {flx flx' : V → ℕ × ℕ → ℕ → ℕ → ℝ} {a : ℕ}
    (h1 : ∀ ee ∈ el.zipIdx, ∀ Q < test.npts, SD (fun z => src z ee Q) (fun w => src' w ee Q) x)
    (h2 : ∀ ee ∈ el.zipIdx, ∀ Q < test.npts, ∀ k < test.dim, SD (fun z => flx z ee Q k) (fun w => flx' w ee Q k) x) :
    SD (fun z => summed test phi dphi wt e el (src z) (flx z) a) (fun w => summed test phi dphi wt e el (src' w) (flx' w) a) x := by
  unfold summed C51.weigh
  exact SD.list _ fun ee hee => SD.ite fun _ => SD.sum _ fun Q hQ => (((h1 ee hee Q (mem_range.1 hQ)).mul_const _).add
    (SD.sum _ fun k hk => (h2 ee hee Q (mem_range.1 hQ) k (mem_range.1 hk)).mul_const _)).const_mul _

/-- Evaluation of several integrals. -/
theorem evals_at (h : C51.Test test phi dphi wt) (hc : 0 < c) (hd : 0 < test.dim) (l : List T) (zf : T → Bool) (qf : T → PointFn ℝ) (el : T → List ℕ) (U r : ℕ → ℝ)
    (e : ℕ) (i : Fin c) {a : ℕ} (ha : a < test.ndof) :
    l.foldl (fun r T => evalKernel test trial c m false (zf T) (qf T) (el T) U r) r (e * (c * test.ndof) + (i * test.ndof + a)) =
      r (e * (c * test.ndof) + (i * test.ndof + a)) + (l.map fun T => summed test phi dphi wt e (el T)
        (fun ee Q => (qf T (ee.2 * test.npts + Q) ((interpolate trial fun p => U (ee.1 * (m * trial.ndof) + p)).value Q)
          ((interpolate trial fun p => U (ee.1 * (m * trial.ndof) + p)).grad Q)).1 i)
        (fun ee Q k => if zf T then 0 else (qf T (ee.2 * test.npts + Q) ((interpolate trial fun p => U (ee.1 * (m * trial.ndof) + p)).value Q)
          ((interpolate trial fun p => U (ee.1 * (m * trial.ndof) + p)).grad Q)).2 i k) a).sum := by
  refine C51.fold_add _ _ _ _ (fun s T _ => ?_) _
  rw [C51.eval_at h c m hc hd false (zf T) (qf T) (el T) U s e _ (C77.idx_lt i ha)]
  simp only [(div_idx i ha).1, (div_idx i ha).2]
  rfl

/-- Actions of several integrals. -/
theorem actions_at (h : C51.Test test phi dphi wt) (hc : 0 < c) (hd : 0 < test.dim) (hz : test.dim = trial.dim) (l : List T) (z : T → Shape) (D : T → Buffer ℝ) (el : T → List ℕ)
    (dU r : ℕ → ℝ) (e : ℕ) (i : Fin c) {a : ℕ} (ha : a < test.ndof) :
    l.foldl (fun r T => actionKernel test trial c m (z T) (D T) (el T) dU r) r (e * (c * test.ndof) + (i * test.ndof + a)) =
      r (e * (c * test.ndof) + (i * test.ndof + a)) + (l.map fun T => summed test phi dphi wt e (el T)
        (fun ee Q => C51.dSource (z T) m trial.dim (D T (ee.2 * test.npts + Q)) ((interpolate trial fun p => dU (ee.1 * (m * trial.ndof) + p)).value Q)
          ((interpolate trial fun p => dU (ee.1 * (m * trial.ndof) + p)).grad Q) i)
        (fun ee Q k => C51.dFlux (z T) m trial.dim (D T (ee.2 * test.npts + Q)) ((interpolate trial fun p => dU (ee.1 * (m * trial.ndof) + p)).value Q)
          ((interpolate trial fun p => dU (ee.1 * (m * trial.ndof) + p)).grad Q) i k) a).sum := by
  refine C51.fold_add _ _ _ _ (fun s T _ => ?_) _
  rw [C51.action_at h c m hc hd (z T) (D T) (el T) dU s e _ (C77.idx_lt i ha) (Or.inl hz)]
  simp only [(div_idx i ha).1, (div_idx i ha).2]
  congr 1
  unfold summed
  congr 1
  refine List.map_congr_left fun ee _ => ?_
  split_ifs with he
  · subst he
    rfl
  · rfl

theorem basis_sum {n : ℕ} (v : ℕ → ℝ) (g : ℕ → ℕ → ℝ) : ((fun j => v j, fun j l => g j l) : Vec ℝ m × Mat ℝ m n) =
    (∑ j : Fin m, (v j • ((Pi.single j 1, 0) : Vec ℝ m × Mat ℝ m n) + ∑ l : Fin n, g j l • ((0, Matrix.single j l 1) : Vec ℝ m × Mat ℝ m n))) := by
  refine Prod.ext ?_ ?_
  · simp only [Prod.fst_sum, Prod.fst_add, Prod.smul_fst, smul_zero, sum_const_zero, add_zero]
    funext j
    simp [Finset.sum_apply, Pi.single_apply]
  · simp only [Prod.snd_sum, Prod.snd_add, Prod.smul_snd, smul_zero, zero_add]
    ext j l
    simp only [Matrix.sum_apply, Matrix.smul_apply, Matrix.single_apply, smul_eq_mul]
    rw [Finset.sum_eq_single j (fun b _ hb => Finset.sum_eq_zero fun x _ => by simp [hb]) (fun h => absurd (Finset.mem_univ j) h),
      Finset.sum_eq_single l (fun b _ hb => by simp [hb]) (fun h => absurd (Finset.mem_univ l) h)]
    simp

theorem basis_map {n : ℕ} {W : Type} [AddCommGroup W] [Module ℝ W] {L : Vec ℝ m × Mat ℝ m n → W} (hL : ∀ y z, L (y + z) = L y + L z) (hL' : ∀ (a : ℝ) y, L (a • y) = a • L y)
    (v : ℕ → ℝ) (g : ℕ → ℕ → ℝ) : L (fun j => v j, fun j l => g j l) =
      ∑ j : Fin m, (v j • L (Pi.single j 1, 0) + ∑ l : Fin n, g j l • L (0, Matrix.single j l 1)) := by
  let L' : Vec ℝ m × Mat ℝ m n →ₗ[ℝ] W := { toFun := L, map_add' := hL, map_smul' := hL' }
  have e : ∀ y, L y = L' y := fun _ => rfl
  rw [basis_sum, e, map_sum]
  refine sum_congr rfl fun j _ => ?_
  rw [map_add, map_sum, map_smul]
  congr 1
  exact sum_congr rfl fun l _ => map_smul _ _ _

/-- The entries of a linear tangent reproduce it. -/
theorem entries_source {n k dim : ℕ} {L : Vec ℝ m × Mat ℝ m n → Vec ℝ c × Mat ℝ c k} (hL : ∀ y z, L (y + z) = L y + L z) (hL' : ∀ (a : ℝ) y, L (a • y) = a • L y)
    (hn : dim = n) (zf : Bool) (v : ℕ → ℝ) (g : ℕ → ℕ → ℝ) (i : Fin c) :
    C51.dSource ⟨false, false, zf, zf⟩ m dim (entries L) v g i = (L (fun j => v j, fun j l => g j l)).1 i := by
  subst hn
  rw [basis_map hL hL', Prod.fst_sum, Finset.sum_apply]
  unfold C51.dSource
  rw [← Fin.sum_univ_eq_sum_range (fun j => C51.e00 ⟨false, false, zf, zf⟩ (entries L) i j * v j + ∑ l ∈ range dim, C51.e01 ⟨false, false, zf, zf⟩ (entries L) i j l * g j l) m]
  refine sum_congr rfl fun j _ => ?_
  rw [← Fin.sum_univ_eq_sum_range (fun l => C51.e01 ⟨false, false, zf, zf⟩ (entries L) i j l * g j l) dim]
  simp only [Prod.fst_add, Prod.fst_sum, Prod.smul_fst, Pi.add_apply, Finset.sum_apply, Pi.smul_apply, smul_eq_mul]
  simp only [C51.e00, C51.e01, entries, Fin.is_lt, and_self, dif_pos, Bool.false_eq_true, if_false, Fin.eta]
  rw [mul_comm]
  congr 1
  exact sum_congr rfl fun l _ => mul_comm _ _

theorem entries_flux {n k dim : ℕ} {L : Vec ℝ m × Mat ℝ m n → Vec ℝ c × Mat ℝ c k} (hL : ∀ y z, L (y + z) = L y + L z) (hL' : ∀ (a : ℝ) y, L (a • y) = a • L y)
    (hn : dim = n) (v : ℕ → ℝ) (g : ℕ → ℕ → ℝ) (i : Fin c) (q : Fin k) :
    C51.dFlux ⟨false, false, false, false⟩ m dim (entries L) v g i q = (L (fun j => v j, fun j l => g j l)).2 i q := by
  subst hn
  rw [basis_map hL hL', Prod.snd_sum, Matrix.sum_apply]
  unfold C51.dFlux
  rw [← Fin.sum_univ_eq_sum_range (fun j => C51.e10 ⟨false, false, false, false⟩ (entries L) i q j * v j + ∑ l ∈ range dim, C51.e11 ⟨false, false, false, false⟩ (entries L) i q j l * g j l) m]
  refine sum_congr rfl fun j _ => ?_
  rw [← Fin.sum_univ_eq_sum_range (fun l => C51.e11 ⟨false, false, false, false⟩ (entries L) i q j l * g j l) dim]
  simp only [Prod.snd_add, Prod.snd_sum, Prod.smul_snd, Matrix.add_apply, Matrix.sum_apply, Matrix.smul_apply, smul_eq_mul]
  simp only [C51.e10, C51.e11, entries, Fin.is_lt, and_self, dif_pos, Bool.false_eq_true, if_false, Fin.eta]
  rw [mul_comm]
  congr 1
  exact sum_congr rfl fun l _ => mul_comm _ _

theorem flux_none {dim : ℕ} (D : Deriv ℝ) (v : ℕ → ℝ) (g : ℕ → ℕ → ℝ) (i q : ℕ) : C51.dFlux ⟨false, false, true, true⟩ m dim D v g i q = 0 := by
  simp [C51.dFlux, C51.e10, C51.e11]

end Kernels

/-! ## The functional -/

section Functional
variable {d : Dim} {c : ℕ}

/-- Spec: shape functions and weights of the fields, in elements and on faces, besides those of positions and of the shape displacement. -/
structure Bases extends C79.Functions where
  phi : ℕ → ℕ → ℝ
  dphi : ℕ → ℕ → ℕ → ℝ
  wt : ℕ → ℝ
  phiF : ℕ → ℕ → ℝ
  dphiF : ℕ → ℕ → ℕ → ℝ
  wtF : ℕ → ℝ

/-- The elements interpolate with them and integrate with them. -/
structure Sound (F : Form d c) (b : Bases) : Prop where
  test : C51.Test F.E b.phi b.dphi b.wt
  trial : C51.Trial F.E b.phi b.dphi
  testF : C51.Test F.EF b.phiF b.dphiF b.wtF
  trialF : C51.Trial F.EF b.phiF b.dphiF
  mesh : C79.Meaning F.M F.V b.toFunctions
  dim : F.E.dim = d.n
  dimW : F.V.W.dim = d.n
  dimF : F.EF.dim = faceDim d
  dimWF : F.V.WF.dim = faceDim d
  comps : 0 < c

/-- Spec: position and derivative of the position at point `Q` of element `e` (face `e`), and the fields there. -/
def place (F : Form d c) (b : Bases) (pos : F.Positions) (e Q : ℕ) : Point d :=
  (C79.value b.X F.M.G.ndof F.M.conn pos e Q, C79.deriv b.dX F.M.G.ndof F.M.conn pos d.n e Q)
def placeF (F : Form d c) (b : Bases) (pos : F.Positions) (e Q : ℕ) : FacePoint d :=
  (C79.value b.XF F.M.GF.ndof F.M.connF pos e Q, C79.deriv b.dXF F.M.GF.ndof F.M.connF pos (faceDim d) e Q)
def fields (F : Form d c) (b : Bases) (u a : Ode.Vec F.N) (q : Ode.Vec F.m) (e Q : ℕ) : Arg d c :=
  ((C79.value b.W F.V.W.ndof F.V.conn (F.shape q) e Q, C79.deriv b.dW F.V.W.ndof F.V.conn (F.shape q) d.n e Q),
   (C79.value b.phi F.E.ndof F.conn (F.nodal u) e Q, C79.deriv b.dphi F.E.ndof F.conn (F.nodal u) d.n e Q),
   (C79.value b.phi F.E.ndof F.conn (F.nodal a) e Q, C79.deriv b.dphi F.E.ndof F.conn (F.nodal a) d.n e Q))
def fieldsF (F : Form d c) (b : Bases) (u : Ode.Vec F.N) (q : Ode.Vec F.m) (e Q : ℕ) : FaceArg d c :=
  ((C79.value b.WF F.V.WF.ndof F.V.connF (F.shape q) e Q, C79.deriv b.dWF F.V.WF.ndof F.V.connF (F.shape q) (faceDim d) e Q),
   (C79.value b.phiF F.EF.ndof F.connF (F.nodal u) e Q, C79.deriv b.dphiF F.EF.ndof F.connF (F.nodal u) (faceDim d) e Q))

/-- Spec: at every point of every integral the mesh is regular with and without the shape displacement, and what dual numbers carry through the integrand is its
derivative there. -/
structure Smooth (F : Form d c) (b : Bases) (pos : F.Positions) (t : ℝ) (u a : Ode.Vec F.N) (q : Ode.Vec F.m) : Prop where
  mesh : ∀ T ∈ F.terms, ∀ e ∈ T.elements, ∀ Q < F.E.npts, (place F b pos e Q).2.det ≠ 0
  moved : ∀ T ∈ F.terms, ∀ e ∈ T.elements, ∀ Q < F.E.npts, ((place F b pos e Q).2 + (fields F b u a q e Q).1.2).det ≠ 0
  slope : ∀ T ∈ F.terms, ∀ ee ∈ T.elements.zipIdx, ∀ Q < F.E.npts,
    let y := seen (place F b pos ee.1 Q) (fields F b u a q ee.1 Q)
    Slope (T.qf (ee.2 * F.E.npts + Q) t) (T.D (ee.2 * F.E.npts + Q) t y) y
  meshF : ∀ T ∈ F.faces, ∀ e ∈ T.elements, ∀ Q < F.EF.npts, C75.area d (placeF F b pos e Q).2 ≠ 0
  movedF : ∀ T ∈ F.faces, ∀ e ∈ T.elements, ∀ Q < F.EF.npts, C75.area d ((placeF F b pos e Q).2 + (fieldsF F b u q e Q).1.2) ≠ 0
  slopeF : ∀ T ∈ F.faces, ∀ ee ∈ T.elements.zipIdx, ∀ Q < F.EF.npts,
    let y := seenF (placeF F b pos ee.1 Q) (fieldsF F b u q ee.1 Q)
    SlopeF (T.qf t) (T.D t y) y

variable {F : Form d c} {b : Bases} {pos : F.Positions} {t : ℝ} {u a : Ode.Vec F.N} {q : Ode.Vec F.m}

theorem at_eq (h : Sound F b) (e Q : ℕ) : F.at_ pos e Q = place F b pos e Q := C71.interp_eq h.mesh.G _ _ _ _
theorem on_eq (h : Sound F b) (e Q : ℕ) : F.on_ pos e Q = placeF F b pos e Q := C75.interp_eq h.mesh.GF _ _ _ _

theorem fieldAt_eq (h : Sound F b) (v : Fin F.nn → Vec ℝ c) (e Q : ℕ) :
    F.fieldAt v e Q = (C79.value b.phi F.E.ndof F.conn v e Q, C79.deriv b.dphi F.E.ndof F.conn v d.n e Q) :=
  Prod.ext (funext fun _ => C77.value_at h.trial _ _ _ _ _) (funext fun _ => funext fun _ => C77.grad_at h.trial _ _ _ _ _ _)

theorem argsAt_eq (h : Sound F b) (e Q : ℕ) : F.argsAt u a q e Q = fields F b u a q e Q :=
  Prod.ext (C71.interp_eq h.mesh.W _ _ _ _) (Prod.ext (fieldAt_eq h _ _ _) (fieldAt_eq h _ _ _))
theorem argsOn_eq (h : Sound F b) (e Q : ℕ) : F.argsOn u q e Q = fieldsF F b u q e Q :=
  Prod.ext (C75.interp_eq h.mesh.WF _ _ _ _) (C75.interp_eq h.trialF _ _ _ _)

/-- All dofs: of the field, of its rate, of the shape displacement. -/
abbrev Dofs (F : Form d c) := Ode.Vec F.N × Ode.Vec F.N × Ode.Vec F.m

theorem sd_field {N nn m r : ℕ} {V : Type} [NormedAddCommGroup V] [NormedSpace ℝ V] {f f' : V → Ode.Vec N} {x : V} (h : SD f f' x) (num : Fin nn × Fin m ≃ Fin N)
    (phi : ℕ → ℕ → ℝ) (dphi : ℕ → ℕ → ℕ → ℝ) (ndof : ℕ) (conn : ℕ → ℕ → Fin nn) (e Q : ℕ) :
    SD (fun z => ((C79.value phi ndof conn (fun n i => f z (num (n, i))) e Q, C79.deriv dphi ndof conn (fun n i => f z (num (n, i))) r e Q) : Vec ℝ m × Mat ℝ m r))
      (fun w => (C79.value phi ndof conn (fun n i => f' w (num (n, i))) e Q, C79.deriv dphi ndof conn (fun n i => f' w (num (n, i))) r e Q)) x :=
  SD.prod (SD.pi fun _ => SD.sum _ fun _ _ => (h.at _).mul_const _) (SD.mat fun _ _ => SD.sum _ fun _ _ => (h.at _).mul_const _)

theorem sd_u (x : Dofs F) : SD (fun z : Dofs F => z.1) (fun w => w.1) x := SD.linear (ContinuousLinearMap.fst ℝ _ _) x
theorem sd_rest (x : Dofs F) : SD (fun z : Dofs F => z.2) (fun w => w.2) x := SD.linear (ContinuousLinearMap.snd ℝ _ _) x

theorem sd_fields (h : Sound F b) (x : Dofs F) (e Q : ℕ) :
    SD (fun z : Dofs F => F.argsAt z.1 z.2.1 z.2.2 e Q) (fun w => F.argsAt w.1 w.2.1 w.2.2 e Q) x := by
  simp only [argsAt_eq h]
  exact (sd_field (sd_rest x).snd F.numP b.W b.dW _ _ e Q).prod ((sd_field (sd_u x) F.num b.phi b.dphi _ _ e Q).prod (sd_field (sd_rest x).fst F.num b.phi b.dphi _ _ e Q))

theorem sd_fieldsF (h : Sound F b) (x : Dofs F) (e Q : ℕ) :
    SD (fun z : Dofs F => F.argsOn z.1 z.2.2 e Q) (fun w => F.argsOn w.1 w.2.2 e Q) x := by
  simp only [argsOn_eq h]
  exact (sd_field (sd_rest x).snd F.numP b.WF b.dWF _ _ e Q).prod (sd_field (sd_u x) F.num b.phiF b.dphiF _ _ e Q)

/-- A tangent splits into directions. -/
theorem split3 {V W : Type} [AddCommGroup V] [AddCommGroup W] {U X : Type} [AddCommGroup U] [AddCommGroup X] {f : U × V × X → W}
    (h : ∀ y z, f (y + z) = f y + f z) (w : U × V × X) : f w = f (w.1, 0, 0) + f (0, w.2.1, 0) + f (0, 0, w.2.2) := by
  rw [← h, ← h]
  congr 1
  simp
theorem split2 {U V W : Type} [AddCommGroup V] [AddCommGroup W] [AddCommGroup U] {f : U × V → W} (h : ∀ y z, f (y + z) = f y + f z) (w : U × V) :
    f w = f (w.1, 0) + f (0, w.2) := by
  rw [← h]
  congr 1
  simp

theorem lin_left {U V W : Type} [AddCommGroup V] [AddCommGroup W] [AddCommGroup U] [Module ℝ U] [Module ℝ V] [Module ℝ W] {f : U × V → W}
    (h : ∀ y z, f (y + z) = f y + f z) (h' : ∀ (a : ℝ) y, f (a • y) = a • f y) :
    (∀ y z, f (y + z, 0) = f (y, 0) + f (z, 0)) ∧ ∀ (a : ℝ) y, f (a • y, 0) = a • f (y, 0) :=
  ⟨fun y z => by rw [← h]; congr 1; simp, fun a y => by rw [← h']; congr 1; simp⟩
theorem lin_right {U V W : Type} [AddCommGroup V] [AddCommGroup W] [AddCommGroup U] [Module ℝ U] [Module ℝ V] [Module ℝ W] {f : U × V → W}
    (h : ∀ y z, f (y + z) = f y + f z) (h' : ∀ (a : ℝ) y, f (a • y) = a • f y) :
    (∀ y z, f (0, y + z) = f (0, y) + f (0, z)) ∧ ∀ (a : ℝ) y, f (0, a • y) = a • f (0, y) :=
  ⟨fun y z => by rw [← h]; congr 1; simp, fun a y => by rw [← h']; congr 1; simp⟩

theorem flatV_at {n : ℕ} (v : Vec ℝ n) (i : Fin n) : flatV v i = v i := by simp [flatV]
theorem flatM_at {m n : ℕ} (v : Mat ℝ m n) (i : Fin m) (j : Fin n) : flatM v i j = v i j := by simp [flatM]

theorem regroup (x y z v w : ℝ) : x + v + y + (z + w) = x + y + z + (v + w) := by ring
theorem rotate (x y z : ℝ) : x + y + z = y + z + x := by ring

/-- The derivative of one term at one point, all fields together. -/
theorem sd_point (h : Sound F b) (hs : Smooth F b pos t u a q) {T : DomainTerm d c} (hT : T ∈ F.terms) {ee : ℕ × ℕ} (hee : ee ∈ T.elements.zipIdx) {Q : ℕ} (hQ : Q < F.E.npts) :
    SD (fun z : Arg d c => (shapedPoint (T.qf (ee.2 * F.E.npts + Q) t) (F.at_ pos ee.1 Q) z.1 z.2.1 z.2.2).getD (0, 0))
      (pointTangent (T.qf (ee.2 * F.E.npts + Q) t) (T.D (ee.2 * F.E.npts + Q) t) (F.at_ pos ee.1 Q) (F.argsAt u a q ee.1 Q)) (F.argsAt u a q ee.1 Q) := by
  rw [at_eq h, argsAt_eq h]
  exact point_deriv (hs.mesh T hT _ (C71.mem_zipIdx_fst hee) Q hQ) (hs.moved T hT _ (C71.mem_zipIdx_fst hee) Q hQ) (hs.slope T hT ee hee Q hQ)

theorem norm_ne {X : Mat ℝ d.n (faceDim d)} (h : C75.area d X ≠ 0) : Transform.norm (crossAt d X) ≠ 0 := by
  cases d with
  | two => exact C19.sqrt_ne h
  | three =>
    rw [C79.area_three] at h
    exact C19.sqrt_ne h

theorem sd_face (h : Sound F b) (hs : Smooth F b pos t u a q) {T : FaceTerm d c} (hT : T ∈ F.faces) {ee : ℕ × ℕ} (hee : ee ∈ T.elements.zipIdx) {Q : ℕ} (hQ : Q < F.EF.npts) :
    SD (fun z : FaceArg d c => (facePoint (T.qf t) (F.on_ pos ee.1 Q) z).getD 0)
      (faceTangent (T.qf t) (T.D t) (F.on_ pos ee.1 Q) (F.argsOn u q ee.1 Q)) (F.argsOn u q ee.1 Q) := by
  rw [on_eq h, argsOn_eq h]
  exact face_deriv (norm_ne (hs.meshF T hT _ (C71.mem_zipIdx_fst hee) Q hQ)) (norm_ne (hs.movedF T hT _ (C71.mem_zipIdx_fst hee) Q hQ)) (hs.slopeF T hT ee hee Q hQ)

/-- Element vectors of the integrals, and of their actions. -/
def domainVec (F : Form d c) (pos : F.Positions) (t : ℝ) (z : Dofs F) : ℕ → ℝ :=
  F.terms.foldl (fun r T => evalKernel F.E F.E c c false T.zf (F.pointFn pos T t z.2.1 z.2.2) T.elements (gatherE F.E.ndof F.conn (F.nodal z.1)) r) fun _ => 0
def domainAct (F : Form d c) (pos : F.Positions) (t : ℝ) (u a : Ode.Vec F.N) (q : Ode.Vec F.m) (o1 o2 o3 : Buffer ℝ) (w : Dofs F) : ℕ → ℝ := fun p =>
  (F.terms.foldl (fun r T => actionKernel F.E F.E c c (Form.domainShape T) (F.fieldBuffer pos o1 t u a q T) T.elements (gatherE F.E.ndof F.conn (F.nodal w.1)) r) fun _ => 0) p +
  (F.terms.foldl (fun r T => actionKernel F.E F.E c c (Form.domainShape T) (F.rateBuffer pos o2 t u a q T) T.elements (gatherE F.E.ndof F.conn (F.nodal w.2.1)) r) fun _ => 0) p +
  (F.terms.foldl (fun r T => actionKernel F.E F.V.W c d.n (Form.domainShape T) (F.shapeBuffer pos o3 t u a q T) T.elements (gatherE F.V.W.ndof F.V.conn (F.shape w.2.2)) r) fun _ => 0) p
def faceVec (F : Form d c) (pos : F.Positions) (t : ℝ) (T : FaceTerm d c) (z : Dofs F) : ℕ → ℝ :=
  evalKernel F.EF F.EF c c false true (F.faceFn pos T t z.2.2) T.elements (gatherE F.EF.ndof F.connF (F.nodal z.1)) fun _ => 0
def faceAct (F : Form d c) (pos : F.Positions) (t : ℝ) (u : Ode.Vec F.N) (q : Ode.Vec F.m) (o1 o3 : Buffer ℝ) (T : FaceTerm d c) (w : Dofs F) : ℕ → ℝ := fun p =>
  actionKernel F.EF F.EF c c Form.faceShape (F.faceFieldBuffer pos o1 t u q T) T.elements (gatherE F.EF.ndof F.connF (F.nodal w.1)) (fun _ => 0) p +
  actionKernel F.EF F.V.WF c d.n Form.faceShape (F.faceShapeBuffer pos o3 t u q T) T.elements (gatherE F.V.WF.ndof F.V.connF (F.shape w.2.2)) (fun _ => 0) p

/-- One entry of the element vector of the domain integrals. -/
theorem sd_element (h : Sound F b) (hs : Smooth F b pos t u a q) (o1 o2 o3 : Buffer ℝ) (e : ℕ) (i : Fin c) {k : ℕ} (hk : k < F.E.ndof) :
    SD (fun z : Dofs F => domainVec F pos t z (e * (c * F.E.ndof) + (i * F.E.ndof + k)))
      (fun w => domainAct F pos t u a q o1 o2 o3 w (e * (c * F.E.ndof) + (i * F.E.ndof + k))) (u, a, q) := by
  have hd : 0 < F.E.dim := by rw [h.dim]; cases d <;> decide
  have key : SD (fun z : Dofs F => (F.terms.map fun T => summed F.E b.phi b.dphi b.wt e T.elements
      (fun ee Q => ((shapedPoint (T.qf (ee.2 * F.E.npts + Q) t) (F.at_ pos ee.1 Q) (F.argsAt z.1 z.2.1 z.2.2 ee.1 Q).1 (F.argsAt z.1 z.2.1 z.2.2 ee.1 Q).2.1
        (F.argsAt z.1 z.2.1 z.2.2 ee.1 Q).2.2).getD (0, 0)).1 i)
      (fun ee Q l => if T.zf then 0 else flatM ((shapedPoint (T.qf (ee.2 * F.E.npts + Q) t) (F.at_ pos ee.1 Q) (F.argsAt z.1 z.2.1 z.2.2 ee.1 Q).1
        (F.argsAt z.1 z.2.1 z.2.2 ee.1 Q).2.1 (F.argsAt z.1 z.2.1 z.2.2 ee.1 Q).2.2).getD (0, 0)).2 i l) k).sum)
      (fun w => (F.terms.map fun T => summed F.E b.phi b.dphi b.wt e T.elements
        (fun ee Q => (pointTangent (T.qf (ee.2 * F.E.npts + Q) t) (T.D (ee.2 * F.E.npts + Q) t) (F.at_ pos ee.1 Q) (F.argsAt u a q ee.1 Q) (F.argsAt w.1 w.2.1 w.2.2 ee.1 Q)).1 i)
        (fun ee Q l => if T.zf then 0 else
          flatM (pointTangent (T.qf (ee.2 * F.E.npts + Q) t) (T.D (ee.2 * F.E.npts + Q) t) (F.at_ pos ee.1 Q) (F.argsAt u a q ee.1 Q) (F.argsAt w.1 w.2.1 w.2.2 ee.1 Q)).2 i l) k).sum)
      (u, a, q) := by
    refine SD.list _ fun T hT => summed_sd (fun ee hee Q hQ => ?_) fun ee hee Q hQ l hl => SD.ite_zero fun _ => ?_
    · exact ((SD.chain (g := fun z : Dofs F => F.argsAt z.1 z.2.1 z.2.2 ee.1 Q) (x := (u, a, q)) (sd_point h hs hT hee hQ) (sd_fields h (u, a, q) ee.1 Q)).fst).at i
    · rw [h.dim] at hl
      have := ((SD.chain (g := fun z : Dofs F => F.argsAt z.1 z.2.1 z.2.2 ee.1 Q) (x := (u, a, q)) (sd_point h hs hT hee hQ) (sd_fields h (u, a, q) ee.1 Q)).snd).entry i ⟨l, hl⟩
      exact this.congr (fun z => flatM_at _ i ⟨l, hl⟩) fun w => flatM_at _ i ⟨l, hl⟩
  refine key.congr (fun z => ?_) fun w => ?_
  · unfold domainVec
    rw [evals_at h.test h.comps hd _ _ _ _ _ _ _ _ hk, zero_add]
    congr 1
    refine List.map_congr_left fun T hT => summed_congr (fun ee hee Q hQ => ?_) fun ee hee Q hQ l hl => ?_
    · unfold Form.pointFn
      dsimp only
      rw [(C79.point_index hQ).1, (C79.point_index hQ).2, C71.getD_zipIdx hee, flatV_at]
      rfl
    · unfold Form.pointFn
      dsimp only
      rw [(C79.point_index hQ).1, (C79.point_index hQ).2, C71.getD_zipIdx hee]
      rfl
  · unfold domainAct
    rw [actions_at h.test h.comps hd rfl _ _ _ _ _ _ _ _ hk, actions_at h.test h.comps hd rfl _ _ _ _ _ _ _ _ hk,
      actions_at h.test h.comps hd (h.dim.trans h.dimW.symm) _ _ _ _ _ _ _ _ hk, zero_add, zero_add, zero_add,
      ← List.sum_map_add, ← List.sum_map_add]
    congr 1
    refine List.map_congr_left fun T hT => ?_
    rw [← summed_add, ← summed_add]
    refine Eq.symm (summed_congr (fun ee hee Q hQ => ?_) fun ee hee Q hQ l hl => ?_)
    all_goals
      have hp := sd_point h hs hT hee hQ
      have hl1 := lin_left hp.map_add hp.map_smul
      have hl2 := lin_right hp.map_add hp.map_smul
      have hl3 := lin_left (f := fun y => pointTangent _ _ _ _ (0, y)) hl2.1 hl2.2
      have hl4 := lin_right (f := fun y => pointTangent _ _ _ _ (0, y)) hl2.1 hl2.2
      unfold Form.fieldBuffer Form.rateBuffer Form.shapeBuffer
      rw [C77.store_at _ _ _ hee hQ, C77.store_at _ _ _ hee hQ, C77.store_at _ _ _ hee hQ]
      unfold Form.fieldGrad Form.rateGrad Form.shapeGrad
      dsimp only
      rw [(C79.point_index hQ).1, (C79.point_index hQ).2, C71.getD_zipIdx hee]
    · refine (congrArg (fun x : Field d c => x.1 i) (split3 hp.map_add _)).trans ((rotate _ _ _).trans (congrArg₂ (· + ·) (congrArg₂ (· + ·) ?_ ?_) ?_))
      · exact (entries_source (L := fun du => pointTangent (T.qf (ee.2 * F.E.npts + Q) t) (T.D (ee.2 * F.E.npts + Q) t) (F.at_ pos ee.1 Q) (F.argsAt u a q ee.1 Q) (0, du, 0)) hl3.1 hl3.2 h.dim T.zf _ _ i).symm
      · exact (entries_source (L := fun da => pointTangent (T.qf (ee.2 * F.E.npts + Q) t) (T.D (ee.2 * F.E.npts + Q) t) (F.at_ pos ee.1 Q) (F.argsAt u a q ee.1 Q) (0, 0, da)) hl4.1 hl4.2 h.dim T.zf _ _ i).symm
      · exact (entries_source (L := fun dp => pointTangent (T.qf (ee.2 * F.E.npts + Q) t) (T.D (ee.2 * F.E.npts + Q) t) (F.at_ pos ee.1 Q) (F.argsAt u a q ee.1 Q) (dp, 0)) hl1.1 hl1.2 h.dimW T.zf _ _ i).symm
    · rw [h.dim] at hl
      unfold Form.domainShape
      by_cases hz : T.zf
      · rw [if_pos hz, hz, flux_none, flux_none, flux_none, add_zero, add_zero]
      · rw [if_neg hz, Bool.not_eq_true _ |>.mp hz]
        refine (flatM_at _ i ⟨l, hl⟩).trans ((congrArg (fun x : Field d c => x.2 i ⟨l, hl⟩) (split3 hp.map_add _)).trans ((rotate _ _ _).trans
          (congrArg₂ (· + ·) (congrArg₂ (· + ·) ?_ ?_) ?_)))
        · exact (entries_flux (L := fun du => pointTangent (T.qf (ee.2 * F.E.npts + Q) t) (T.D (ee.2 * F.E.npts + Q) t) (F.at_ pos ee.1 Q) (F.argsAt u a q ee.1 Q) (0, du, 0)) hl3.1 hl3.2 h.dim _ _ i ⟨l, hl⟩).symm
        · exact (entries_flux (L := fun da => pointTangent (T.qf (ee.2 * F.E.npts + Q) t) (T.D (ee.2 * F.E.npts + Q) t) (F.at_ pos ee.1 Q) (F.argsAt u a q ee.1 Q) (0, 0, da)) hl4.1 hl4.2 h.dim _ _ i ⟨l, hl⟩).symm
        · exact (entries_flux (L := fun dp => pointTangent (T.qf (ee.2 * F.E.npts + Q) t) (T.D (ee.2 * F.E.npts + Q) t) (F.at_ pos ee.1 Q) (F.argsAt u a q ee.1 Q) (dp, 0)) hl1.1 hl1.2 h.dimW _ _ i ⟨l, hl⟩).symm

/-- One entry of the element vector of a boundary integral. -/
theorem sd_faceElement (h : Sound F b) (hs : Smooth F b pos t u a q) (o1 o3 : Buffer ℝ) {T : FaceTerm d c} (hT : T ∈ F.faces) (e : ℕ) (i : Fin c) {k : ℕ} (hk : k < F.EF.ndof) :
    SD (fun z : Dofs F => faceVec F pos t T z (e * (c * F.EF.ndof) + (i * F.EF.ndof + k)))
      (fun w => faceAct F pos t u q o1 o3 T w (e * (c * F.EF.ndof) + (i * F.EF.ndof + k))) (u, a, q) := by
  have hd : 0 < F.EF.dim := by rw [h.dimF]; cases d <;> decide
  have key : SD (fun z : Dofs F => summed F.EF b.phiF b.dphiF b.wtF e T.elements
      (fun ee Q => (facePoint (T.qf t) (F.on_ pos ee.1 Q) (F.argsOn z.1 z.2.2 ee.1 Q)).getD 0 i) (fun _ _ _ => 0) k)
      (fun w => summed F.EF b.phiF b.dphiF b.wtF e T.elements
        (fun ee Q => faceTangent (T.qf t) (T.D t) (F.on_ pos ee.1 Q) (F.argsOn u q ee.1 Q) (F.argsOn w.1 w.2.2 ee.1 Q) i) (fun _ _ _ => 0) k) (u, a, q) :=
    summed_sd (fun ee hee Q hQ => (SD.chain (g := fun z : Dofs F => F.argsOn z.1 z.2.2 ee.1 Q) (x := (u, a, q)) (sd_face h hs hT hee hQ) (sd_fieldsF h (u, a, q) ee.1 Q)).at i)
      fun ee hee Q hQ l hl => SD.const 0 _
  refine key.congr (fun z => ?_) fun w => ?_
  · refine (evals_at h.testF h.comps hd [T] (fun _ => true) (fun T => F.faceFn pos T t z.2.2) (fun T => T.elements) _ _ _ _ hk).trans ?_
    rw [zero_add, List.map_singleton, List.sum_singleton]
    refine summed_congr (fun ee hee Q hQ => ?_) fun ee hee Q hQ l hl => if_pos rfl
    unfold Form.faceFn
    dsimp only
    rw [(C79.point_index hQ).1, (C79.point_index hQ).2, C71.getD_zipIdx hee, flatV_at]
    rfl
  · have e1 := actions_at h.testF h.comps hd rfl [T] (fun _ => Form.faceShape) (fun T => F.faceFieldBuffer pos o1 t u q T) (fun T => T.elements) (gatherE F.EF.ndof F.connF (F.nodal w.1))
      (fun _ => 0) e i hk (m := c) (trial := F.EF)
    have e3 := actions_at h.testF h.comps hd (h.dimF.trans h.dimWF.symm) [T] (fun _ => Form.faceShape) (fun T => F.faceShapeBuffer pos o3 t u q T) (fun T => T.elements)
      (gatherE F.V.WF.ndof F.V.connF (F.shape w.2.2)) (fun _ => 0) e i hk (m := d.n) (trial := F.V.WF)
    rw [zero_add, List.map_singleton, List.sum_singleton] at e1 e3
    refine (congrArg₂ (· + ·) e1 e3).trans ?_
    rw [← summed_add]
    refine Eq.symm (summed_congr (fun ee hee Q hQ => ?_) fun ee hee Q hQ l hl => ?_)
    · have hp := sd_face h hs hT hee hQ
      have hl1 := lin_left hp.map_add hp.map_smul
      have hl2 := lin_right hp.map_add hp.map_smul
      unfold Form.faceFieldBuffer Form.faceShapeBuffer
      rw [C77.store_at _ _ _ hee hQ, C77.store_at _ _ _ hee hQ]
      unfold Form.faceFieldGrad Form.faceShapeGrad
      dsimp only
      rw [(C79.point_index hQ).1, (C79.point_index hQ).2, C71.getD_zipIdx hee]
      refine (congrArg (fun x : Vec ℝ c => x i) (split2 hp.map_add _)).trans ((add_comm _ _).trans (congrArg₂ (· + ·) ?_ ?_))
      · exact (entries_source (L := fun du => Form.noFlux (k := faceDim d) (faceTangent (T.qf t) (T.D t) (F.on_ pos ee.1 Q) (F.argsOn u q ee.1 Q) ((0, 0), du)))
          (fun y z => Prod.ext (hl2.1 y z) (add_zero _).symm) (fun r y => Prod.ext (hl2.2 r y) (smul_zero _).symm) h.dimF true _ _ i).symm
      · exact (entries_source (L := fun dp => Form.noFlux (k := faceDim d) (faceTangent (T.qf t) (T.D t) (F.on_ pos ee.1 Q) (F.argsOn u q ee.1 Q) (dp, (0, 0))))
          (fun y z => Prod.ext (hl1.1 y z) (add_zero _).symm) (fun r y => Prod.ext (hl1.2 r y) (smul_zero _).symm) h.dimWF true _ _ i).symm
    · unfold Form.faceShape
      rw [flux_none, flux_none, add_zero]

/-- Assembled gradients of several integrals times a vector. -/
theorem gradient_mul {test trial : Elem ℝ} {phi phi' : ℕ → ℕ → ℝ} {dphi dphi' : ℕ → ℕ → ℕ → ℝ} {wt : ℕ → ℝ} {m nn nn' N ne : ℕ} {T : Type}
    (h : C51.Test test phi dphi wt) (h' : C51.Trial trial phi' dphi') (hc : 0 < c) (hd : 0 < test.dim) (hz : test.dim = trial.dim) (l : List T) (z : T → Shape)
    (D : T → Buffer ℝ) (el : T → List ℕ) (conn : ℕ → ℕ → Fin nn) (conn' : ℕ → ℕ → Fin nn') (num : Fin nn' × Fin m ≃ Fin N) (x : Ode.Vec N) (n : Fin nn × Fin c) :
    scatterE test.ndof ne conn (l.foldl (fun r T => actionKernel test trial c m (z T) (D T) (el T) (gatherE trial.ndof conn' fun n i => x (num (n, i))) r) fun _ => 0) n.1 n.2 =
      ∑ j, assembleQ test.ndof trial.ndof ne conn conn' (l.foldl (fun K T => gradientKernel test trial c m (z T) (D T) (el T) K) fun _ => 0) n (num.symm j) * x j := by
  refine (assembleQ_mul (ndof' := trial.ndof) conn conn' _ (l.foldl (fun K T => gradientKernel test trial c m (z T) (D T) (el T) K) fun _ => 0) (fun n i => x (num (n, i))) n.1 n.2
    fun e a ha => ?_).trans ?_
  rotate_left
  · rw [← num.sum_comp, Fintype.sum_prod_type]
    simp only [Equiv.symm_apply_apply]
  · have := fold_matrix (m := m) h h' hc hd hz l z D el (gatherE trial.ndof conn' fun n i => x (num (n, i))) (fun _ => 0) (fun _ => 0) e _ (C77.idx_lt n.2 ha)
    simp only [sub_zero] at this
    exact this

theorem matrix_fold {ι : Type} {N : ℕ} (l : List ι) (A : Fin N → ℝ) (B : ι → Fin N → ℝ) (w : Fin N → ℝ) :
    ∑ j, (l.foldl (fun x T => x + B T j) (A j)) * w j = ∑ j, A j * w j + (l.map fun T => ∑ j, B T j * w j).sum := by
  induction l generalizing A with
  | nil => simp
  | cons T l ih =>
    simp only [List.foldl_cons, List.map_cons, List.sum_cons]
    rw [ih fun j => A j + B T j]
    simp only [add_mul, sum_add_distrib, add_assoc]

theorem sd_scatter {V : Type} [NormedAddCommGroup V] [NormedSpace ℝ V] {x : V} {nn ndof ne : ℕ} (conn : ℕ → ℕ → Fin nn) {f f' : V → ℕ → ℝ}
    (h : ∀ e, ∀ k < ndof, ∀ i : Fin c, SD (fun z => f z (e * (c * ndof) + (i * ndof + k))) (fun w => f' w (e * (c * ndof) + (i * ndof + k))) x) (n : Fin nn) (i : Fin c) :
    SD (fun z => scatterE ndof ne conn (f z) n i) (fun w => scatterE ndof ne conn (f' w) n i) x :=
  SD.sum _ fun e _ => SD.sum _ fun k hk => SD.ite fun _ => h e k (mem_range.1 hk) i

theorem scatter_add {nn ndof ne : ℕ} (conn : ℕ → ℕ → Fin nn) (f g : ℕ → ℝ) (n : Fin nn) (i : Fin c) :
    scatterE ndof ne conn (fun k => f k + g k) n i = scatterE ndof ne conn f n i + scatterE ndof ne conn g n i := by
  unfold scatterE
  rw [← sum_add_distrib]
  refine sum_congr rfl fun e _ => ?_
  rw [← sum_add_distrib]
  exact sum_congr rfl fun k _ => by split_ifs <;> simp

/-- **C88, derivative.**  The assembled gradients of a shape-aware functional with respect to the field, to its rate and to the shape displacement are the derivatives of
the assembled residual, all three at once and whatever the buffers of derivatives held before. -/
theorem C88_derivative (h : Sound F b) (hs : Smooth F b pos t u a q) (o1 o2 o3 : Buffer ℝ) :
    ∃ L : Dofs F →L[ℝ] Ode.Vec F.N, HasStrictFDerivAt (fun z : Dofs F => F.residual pos t z.1 z.2.1 z.2.2) L (u, a, q) ∧ ∀ w k, L w k =
      ∑ j, F.fieldMatrix pos o1 t u a q k j * w.1 j + ∑ j, F.rateMatrix pos o2 t u a q k j * w.2.1 j + ∑ j, F.shapeMatrix pos o3 t u a q k j * w.2.2 j := by
  have hd : 0 < F.E.dim := by rw [h.dim]; cases d <;> decide
  have hdF : 0 < F.EF.dim := by rw [h.dimF]; cases d <;> decide
  have key : SD (fun z : Dofs F => F.residual pos t z.1 z.2.1 z.2.2) (fun w k =>
      ∑ j, F.fieldMatrix pos o1 t u a q k j * w.1 j + ∑ j, F.rateMatrix pos o2 t u a q k j * w.2.1 j + ∑ j, F.shapeMatrix pos o3 t u a q k j * w.2.2 j) (u, a, q) := by
    refine SD.pi fun k => ?_
    have h1 := sd_scatter (f := domainVec F pos t) (f' := domainAct F pos t u a q o1 o2 o3) (ne := F.M.ne) F.conn (fun e k hk i => sd_element h hs o1 o2 o3 e i hk)
      (F.num.symm k).1 (F.num.symm k).2
    have h2 := SD.list F.faces fun T hT => sd_scatter (f := faceVec F pos t T) (f' := faceAct F pos t u q o1 o3 T) (ne := F.M.nf) F.connF
      (fun e k hk i => sd_faceElement h hs o1 o3 hT e i hk) (F.num.symm k).1 (F.num.symm k).2
    refine (h1.add h2).congr (fun z => C77.foldl_sum _ _ _) fun w => ?_
    unfold domainAct faceAct
    rw [scatter_add, scatter_add]
    simp only [scatter_add]
    rw [List.sum_map_add]
    have g1 := gradient_mul (ne := F.M.ne) h.test h.trial h.comps hd rfl F.terms Form.domainShape (F.fieldBuffer pos o1 t u a q) (fun T => T.elements) F.conn F.conn F.num w.1 (F.num.symm k)
    have g2 := gradient_mul (ne := F.M.ne) h.test h.trial h.comps hd rfl F.terms Form.domainShape (F.rateBuffer pos o2 t u a q) (fun T => T.elements) F.conn F.conn F.num w.2.1 (F.num.symm k)
    have g3 := gradient_mul (ne := F.M.ne) h.test h.mesh.W h.comps hd (h.dim.trans h.dimW.symm) F.terms Form.domainShape (F.shapeBuffer pos o3 t u a q) (fun T => T.elements) F.conn F.V.conn
      F.numP w.2.2 (F.num.symm k)
    have g4 := fun T : FaceTerm d c => gradient_mul (ne := F.M.nf) h.testF h.trialF h.comps hdF rfl [T] (fun _ => Form.faceShape) (F.faceFieldBuffer pos o1 t u q) (fun T => T.elements) F.connF
      F.connF F.num w.1 (F.num.symm k)
    have g5 := fun T : FaceTerm d c => gradient_mul (ne := F.M.nf) h.testF h.mesh.WF h.comps hdF (h.dimF.trans h.dimWF.symm) [T] (fun _ => Form.faceShape) (F.faceShapeBuffer pos o3 t u q)
      (fun T => T.elements) F.connF F.V.connF F.numP w.2.2 (F.num.symm k)
    have e1 := (matrix_fold F.faces (fun j => assembleQ F.E.ndof F.E.ndof F.M.ne F.conn F.conn _ (F.num.symm k) (F.num.symm j))
      (fun T j => assembleQ F.EF.ndof F.EF.ndof F.M.nf F.connF F.connF _ (F.num.symm k) (F.num.symm j)) w.1).trans
        (congrArg₂ (· + ·) g1.symm (congrArg List.sum (List.map_congr_left fun T _ => (g4 T).symm)))
    have e3 := (matrix_fold F.faces (fun j => assembleQ F.E.ndof F.V.W.ndof F.M.ne F.conn F.V.conn _ (F.num.symm k) (F.numP.symm j))
      (fun T j => assembleQ F.EF.ndof F.V.WF.ndof F.M.nf F.connF F.V.connF _ (F.num.symm k) (F.numP.symm j)) w.2.2).trans
        (congrArg₂ (· + ·) g3.symm (congrArg List.sum (List.map_congr_left fun T _ => (g5 T).symm)))
    refine (congrArg₂ (· + ·) (congrArg₂ (· + ·) e1 g2.symm) e3).trans ?_
    exact regroup _ _ _ _ _
  obtain ⟨L, h1, h2⟩ := key
  exact ⟨L, h2, fun w k => congrFun (h1 w) k⟩

end Functional

/-! ## Gradients -/

section Static
open Serac.C59 (time mulP)
variable {n m : ℕ}

/-- Spec: a quasi-static analysis of `N` steps near the parameter `q`.  At the end of each step the residual is differentiable with the assembled derivatives, and the step
is regular; for nearby parameters the analysis stays nearby, is in equilibrium and has the same prescribed values. -/
structure Path (p : StaticAdj.Problem n m) (t0 : ℝ) (dt : ℕ → ℝ) (u0 : Ode.Vec n) (N : ℕ) (q : Ode.Vec m) : Prop where
  deriv : ∀ k, 1 ≤ k → k ≤ N → ∃ L : (Ode.Vec n × Ode.Vec m) →L[ℝ] Ode.Vec n,
    HasStrictFDerivAt (fun z : Ode.Vec n × Ode.Vec m => p.residual (time t0 dt k) z.1 z.2) L (C59.traj p t0 dt u0 q k, q) ∧
    ∀ v w, L (v, w) = Elim.mulVec (p.K (time t0 dt k) (C59.traj p t0 dt u0 q k) q) v + mulP (p.P (time t0 dt k) (C59.traj p t0 dt u0 q k) q) w
  regular : ∀ k, 1 ≤ k → k ≤ N → ∀ w, Elim.mulVec (Elim.elim (p.K (time t0 dt k) (C59.traj p t0 dt u0 q k) q) p.conds.flatten) w = 0 → w = 0
  near : ∀ k, 1 ≤ k → k ≤ N → ContinuousAt (fun q' => C59.traj p t0 dt u0 q' k) q
  solved : ∀ k, 1 ≤ k → k ≤ N → ∀ᶠ q' in nhds q, (∀ i ∈ p.conds.flatten, C59.traj p t0 dt u0 q' k i = C59.traj p t0 dt u0 q k i) ∧
    ∀ i ∉ p.conds.flatten, p.residual (time t0 dt k) (C59.traj p t0 dt u0 q' k) q' i = 0

/-- What a step solves for. -/
def gap (R : Ode.Vec n → Ode.Vec m → Ode.Vec n) (fixed : List (Fin n)) (bc : Ode.Vec n) (w : Ode.Vec m × Ode.Vec n) : Ode.Vec n := fun i => if i ∈ fixed then w.2 i - bc i else R w.2 w.1 i

theorem gap_zero {R : Ode.Vec n → Ode.Vec m → Ode.Vec n} {fixed : List (Fin n)} {bc u : Ode.Vec n} {q : Ode.Vec m} :
    gap R fixed bc (q, u) = 0 ↔ (∀ i ∈ fixed, u i = bc i) ∧ ∀ i ∉ fixed, R u q i = 0 := by
  constructor
  · intro h
    refine ⟨fun i hi => ?_, fun i hi => ?_⟩
    · have := congrFun h i
      simp only [gap, if_pos hi, Pi.zero_apply] at this
      linarith
    · have := congrFun h i
      simpa only [gap, if_neg hi, Pi.zero_apply] using this
  · rintro ⟨h1, h2⟩
    funext i
    by_cases hi : i ∈ fixed
    · simp only [gap, if_pos hi, h1 i hi, sub_self, Pi.zero_apply]
    · simp only [gap, if_neg hi, h2 i hi, Pi.zero_apply]

theorem gap_regular {R : Ode.Vec n → Ode.Vec m → Ode.Vec n} {K : Elim.Mat n} {P : Fin n → Fin m → ℝ} {u : Ode.Vec n} {q : Ode.Vec m} {L : (Ode.Vec n × Ode.Vec m) →L[ℝ] Ode.Vec n}
    (hL : HasStrictFDerivAt (fun z : Ode.Vec n × Ode.Vec m => R z.1 z.2) L (u, q)) (hLa : ∀ v w, L (v, w) = Elim.mulVec K v + mulP P w) {fixed : List (Fin n)}
    (hreg : ∀ w, Elim.mulVec (Elim.elim K fixed) w = 0 → w = 0) (bc : Ode.Vec n) :
    ∃ B : (Ode.Vec m × Ode.Vec n) →L[ℝ] Ode.Vec n, HasStrictFDerivAt (gap R fixed bc) B (q, u) ∧ ∀ v, B (0, v) = 0 → v = 0 := by
  let W := Ode.Vec m × Ode.Vec n
  let E : W →L[ℝ] Ode.Vec n × Ode.Vec m := (ContinuousLinearMap.snd ℝ _ _).prod (ContinuousLinearMap.fst ℝ _ _)
  let π : Fin n → (Ode.Vec n →L[ℝ] ℝ) := fun i => ContinuousLinearMap.proj (R := ℝ) (φ := fun _ : Fin n => ℝ) i
  let B : W →L[ℝ] Ode.Vec n := ContinuousLinearMap.pi fun i => if i ∈ fixed then (π i).comp (ContinuousLinearMap.snd ℝ _ _) else (π i).comp (L.comp E)
  have hB : ∀ w i, B w i = if i ∈ fixed then w.2 i else L (E w) i := by
    intro w i
    change (if i ∈ fixed then (π i).comp (ContinuousLinearMap.snd ℝ _ _) else (π i).comp (L.comp E)) w = _
    split_ifs <;> rfl
  refine ⟨B, hasStrictFDerivAt_pi'.2 fun i => ?_, fun v hv => ?_⟩
  · by_cases hi : i ∈ fixed
    · have e : (fun w => gap R fixed bc w i) = fun w => w.2 i - bc i := by funext w; simp only [gap, if_pos hi]
      have e' : (ContinuousLinearMap.proj i).comp B = (π i).comp (ContinuousLinearMap.snd ℝ _ _) := by
        refine ContinuousLinearMap.ext fun w => ?_
        exact (hB w i).trans (if_pos hi)
      rw [e, e']
      exact ((π i).comp (ContinuousLinearMap.snd ℝ (Ode.Vec m) (Ode.Vec n))).hasStrictFDerivAt.sub_const _
    · have e : (fun w => gap R fixed bc w i) = fun w => R w.2 w.1 i := by funext w; simp only [gap, if_neg hi]
      have e' : (ContinuousLinearMap.proj i).comp B = (π i).comp (L.comp E) := by
        refine ContinuousLinearMap.ext fun w => ?_
        exact (hB w i).trans (if_neg hi)
      rw [e, e']
      have h1 : HasStrictFDerivAt (fun w : W => R w.2 w.1) (L.comp E) (q, u) :=
        HasStrictFDerivAt.comp (g := fun z : Ode.Vec n × Ode.Vec m => R z.1 z.2) (f := E) (q, u) hL E.hasStrictFDerivAt
      exact (π i).hasStrictFDerivAt.comp _ h1
  · have h1 : ∀ i ∈ fixed, v i = 0 := by
      intro i hi
      have := congrFun hv i
      rwa [hB, if_pos hi] at this
    apply hreg
    rw [C77.elim_free _ _ _ h1]
    funext i
    by_cases hi : i ∈ fixed
    · rw [if_pos hi]; rfl
    · rw [if_neg hi]
      have := congrFun hv i
      rw [hB, if_neg hi] at this
      have e : L (E (0, v)) = L (v, 0) := rfl
      rw [e, hLa] at this
      have h3 : mulP P (0 : Ode.Vec m) = 0 := by funext j; simp [mulP]
      rw [h3, add_zero] at this
      exact this

variable {p : StaticAdj.Problem n m} {t0 : ℝ} {dt : ℕ → ℝ} {u0 : Ode.Vec n} {N : ℕ} {q : Ode.Vec m}

theorem Path.diff (hR : Path p t0 dt u0 N q) (k : ℕ) (h1 : 1 ≤ k) (hk : k ≤ N) : ∃ B : Ode.Vec m →L[ℝ] Ode.Vec n, HasFDerivAt (fun q' => C59.traj p t0 dt u0 q' k) B q := by
  obtain ⟨L, hL, hLa⟩ := hR.deriv k h1 hk
  obtain ⟨B, hs, hinj⟩ := gap_regular hL hLa (hR.regular k h1 hk) (C59.traj p t0 dt u0 q k)
  refine C87.solution_diff (c := id) hs hinj (hasFDerivAt_id q) (hR.near k h1 hk) ?_
  filter_upwards [hR.solved k h1 hk] with q' hq'
  exact gap_zero.2 hq'

theorem Path.family (hR : Path p t0 dt u0 N q) (hl : C78.Exact p.linear) (B : ℕ → Ode.Vec m →L[ℝ] Ode.Vec n)
    (hB : ∀ k, 1 ≤ k → k ≤ N → HasFDerivAt (fun q' => C59.traj p t0 dt u0 q' k) (B k) q) (w : Ode.Vec m) :
    C59.Family p t0 dt u0 N (fun r => q + r • w) w (fun k => B k w) 0 := by
  have hq : q + (0 : ℝ) • w = q := by rw [zero_smul, add_zero]
  have hp : HasDerivAt (fun r : ℝ => q + r • w) w 0 := by
    simpa using ((hasDerivAt_id (0 : ℝ)).smul_const w).const_add q
  have ht : Filter.Tendsto (fun r : ℝ => q + r • w) (nhds 0) (nhds q) := by
    have := hp.continuousAt.tendsto
    rwa [hq] at this
  refine ⟨hp, fun k h1 hk => ?_, fun k h1 hk i hi => ?_, fun k h1 hk i hi => ?_, fun k h1 hk => ?_, fun k h1 hk b => ?_⟩
  · have := hB k h1 hk
    rw [← hq] at this
    exact this.comp_hasDerivAt (0 : ℝ) hp
  · filter_upwards [ht.eventually (hR.solved k h1 hk)] with r hr
    exact hr.2 i fun hi' => hi (by rwa [List.mem_flatten] at hi')
  · rw [hq]
    filter_upwards [ht.eventually (hR.solved k h1 hk)] with r hr
    exact hr.1 i (by rwa [List.mem_flatten])
  · rw [hq]
    obtain ⟨L, l1, l2⟩ := hR.deriv k h1 hk
    exact ⟨L, l1.hasFDerivAt, l2⟩
  · rw [hq]
    intro M
    have hM : M = Elim.elim (Adj.transpose (p.K (time t0 dt k) (C59.traj p t0 dt u0 q k) q)) p.conds.flatten := (C26.applyAll_spec _ _ _ _).1
    rw [hM]
    exact hl _ _ (C85.elim_transpose _ _ (hR.regular k h1 hk) b)

/-- Gradients of quasi-static analyses, whatever the parameter is. -/
theorem Path.gradient (hR : Path p t0 dt u0 N q) (hl : C78.Exact p.linear) (J : (Fin N → Ode.Vec n) → ℝ) (g : ℕ → Ode.Vec n)
    (hJ : C59.Gradient J (fun k => C59.traj p t0 dt u0 q (k + 1)) g) :
    ∃ r, StaticAdj.pass p q (C59.loads g N) (StaticAdj.forward p q (C59.steps dt N) (StaticAdj.start t0 u0)) = some r ∧
      ∃ G : Ode.Vec m →L[ℝ] ℝ, HasFDerivAt (fun q' => J fun k : Fin N => C59.traj p t0 dt u0 q' (k + 1)) G q ∧ ∀ w, G w = r.1.sum ⬝ᵥ w := by
  have hex : ∀ k, ∃ B : Ode.Vec m →L[ℝ] Ode.Vec n, 1 ≤ k → k ≤ N → HasFDerivAt (fun q' => C59.traj p t0 dt u0 q' k) B q := by
    intro k
    by_cases hk : 1 ≤ k ∧ k ≤ N
    · obtain ⟨B, hB⟩ := hR.diff k hk.1 hk.2
      exact ⟨B, fun _ _ => hB⟩
    · exact ⟨0, fun h1 h2 => absurd ⟨h1, h2⟩ hk⟩
  choose B hB using hex
  have hq : ∀ w : Ode.Vec m, q + (0 : ℝ) • w = q := fun w => by rw [zero_smul, add_zero]
  have hg : ∀ w, ∃ r, StaticAdj.pass p q (C59.loads g N) (StaticAdj.forward p q (C59.steps dt N) (StaticAdj.start t0 u0)) = some r ∧
      HasDerivAt (fun e : ℝ => J fun k : Fin N => C59.traj p t0 dt u0 (q + e • w) (k + 1)) (r.1.sum ⬝ᵥ w) 0 := by
    intro w
    have := C59.C59_gradient (hR.family hl B hB w) J g (by rw [hq]; exact hJ)
    rw [hq] at this
    exact this
  obtain ⟨r, hr, -⟩ := hg 0
  obtain ⟨L, hL, -⟩ := hJ
  have hd : HasFDerivAt (fun q' => fun k : Fin N => C59.traj p t0 dt u0 q' (k + 1)) (ContinuousLinearMap.pi fun k : Fin N => B (k + 1)) q :=
    hasFDerivAt_pi.2 fun k => hB (k + 1) (by omega) (by have := k.2; omega)
  have hc : HasFDerivAt (fun q' => J fun k : Fin N => C59.traj p t0 dt u0 q' (k + 1)) (L.comp _) q := hL.comp q hd
  refine ⟨r, hr, _, hc, fun w => ?_⟩
  obtain ⟨r', hr', hw⟩ := hg w
  rw [hr, Option.some.injEq] at hr'
  subst hr'
  have hp : HasDerivAt (fun r : ℝ => q + r • w) w 0 := by
    simpa using ((hasDerivAt_id (0 : ℝ)).smul_const w).const_add q
  rw [← hq w] at hc
  have hc2 := hc.comp_hasDerivAt (0 : ℝ) hp
  exact hc2.unique hw

end Static

section Gradient
open Serac.C59 (time mulP)
variable {d : Dim} {c : ℕ} {F : Form d c} {b : Bases} {pos : F.Positions} {old old' : Buffer ℝ} {conds : List (List (Fin F.N))} {linear : Elim.Mat F.N → Ode.Vec F.N → Ode.Vec F.N}
  {t0 : ℝ} {dt : ℕ → ℝ} {N : ℕ}

/-- The derivative by field and shape displacement. -/
theorem static_strict (h : Sound F b) {t : ℝ} {u a : Ode.Vec F.N} {q : Ode.Vec F.m} (hs : Smooth F b pos t u a q) (old old' : Buffer ℝ) :
    ∃ L : (Ode.Vec F.N × Ode.Vec F.m) →L[ℝ] Ode.Vec F.N, HasStrictFDerivAt (fun z : Ode.Vec F.N × Ode.Vec F.m => F.residual pos t z.1 a z.2) L (u, q) ∧
      ∀ v w, L (v, w) = Elim.mulVec (F.fieldMatrix pos old t u a q) v + mulP (F.shapeMatrix pos old' t u a q) w := by
  obtain ⟨L, h1, h2⟩ := C88_derivative h hs old old old'
  let E : (Ode.Vec F.N × Ode.Vec F.m) →L[ℝ] Dofs F := (ContinuousLinearMap.fst ℝ _ _).prod ((0 : (Ode.Vec F.N × Ode.Vec F.m) →L[ℝ] Ode.Vec F.N).prod (ContinuousLinearMap.snd ℝ _ _))
  refine ⟨L.comp E, ?_, fun v w => ?_⟩
  · have hE : HasStrictFDerivAt (fun z : Ode.Vec F.N × Ode.Vec F.m => ((z.1, a, z.2) : Dofs F)) E (u, q) :=
      hasStrictFDerivAt_fst.prodMk ((hasStrictFDerivAt_const a _).prodMk hasStrictFDerivAt_snd)
    exact HasStrictFDerivAt.comp (f := fun z : Ode.Vec F.N × Ode.Vec F.m => ((z.1, a, z.2) : Dofs F)) (u, q) h1 hE
  · have e : L.comp E (v, w) = L (v, 0, w) := rfl
    rw [e]
    funext k
    rw [h2]
    simp only [Pi.zero_apply, mul_zero, sum_const_zero, add_zero]
    rfl

/-- Spec: a quasi-static analysis with shape displacements near `q`. -/
structure Statics (F : Form d c) (b : Bases) (pos : F.Positions) (old : Buffer ℝ) (a : Ode.Vec F.N) (conds : List (List (Fin F.N))) (z : Ode.Vec F.m → ℕ → Ode.Vec F.N) (t0 : ℝ)
    (dt : ℕ → ℝ) (N : ℕ) (q : Ode.Vec F.m) : Prop where
  smooth : ∀ k, 1 ≤ k → k ≤ N → Smooth F b pos (time t0 dt k) (z q k) a q
  regular : ∀ k, 1 ≤ k → k ≤ N → ∀ w, Elim.mulVec (Elim.elim (F.fieldMatrix pos old (time t0 dt k) (z q k) a q) conds.flatten) w = 0 → w = 0
  near : ∀ k, 1 ≤ k → k ≤ N → ContinuousAt (fun q' => z q' k) q
  solved : ∀ k, 1 ≤ k → k ≤ N → ∀ᶠ q' in nhds q, (∀ i ∈ conds.flatten, z q' k i = z q k i) ∧ ∀ i ∉ conds.flatten, F.residual pos (time t0 dt k) (z q' k) a q' i = 0

/-- **C88, gradients of quasi-static analyses.**  The analysis followed by the adjoint pass, with any number of steps: the sum of the shape sensitivities it returns is the
gradient, with respect to the shape displacement, of any differentiable objective of the fields of all steps. -/
theorem C88_gradient (h : Sound F b) {a : Ode.Vec F.N} {solve : ℝ → Ode.Vec F.m → Ode.Vec F.N → Ode.Vec F.N} {u0 : Ode.Vec F.N} {q : Ode.Vec F.m}
    (hR : Statics F b pos old a conds (C59.traj (F.analysis pos old old' a conds solve linear) t0 dt u0) t0 dt N q) (hl : C78.Exact linear)
    (J : (Fin N → Ode.Vec F.N) → ℝ) (g : ℕ → Ode.Vec F.N) (hJ : C59.Gradient J (fun k => C59.traj (F.analysis pos old old' a conds solve linear) t0 dt u0 q (k + 1)) g) :
    ∃ r, StaticAdj.pass (F.analysis pos old old' a conds solve linear) q (C59.loads g N)
        (StaticAdj.forward (F.analysis pos old old' a conds solve linear) q (C59.steps dt N) (StaticAdj.start t0 u0)) = some r ∧
      ∃ G : Ode.Vec F.m →L[ℝ] ℝ, HasFDerivAt (fun q' => J fun k : Fin N => C59.traj (F.analysis pos old old' a conds solve linear) t0 dt u0 q' (k + 1)) G q ∧
        ∀ w, G w = r.1.sum ⬝ᵥ w :=
  Path.gradient ⟨fun k h1 hk => static_strict h (hR.smooth k h1 hk) old old', hR.regular, hR.near, hR.solved⟩ hl J g hJ

/-- Spec: a transient analysis with initial fields and shape displacements near `y`. -/
structure March (F : Form d c) (b : Bases) (pos : F.Positions) (old : Buffer ℝ) (conds : List (List (Fin F.N))) (z : Ode.Vec F.N × Ode.Vec F.m → ℕ → Ode.Vec F.N × Ode.Vec F.N)
    (t0 : ℝ) (dt : ℕ → ℝ) (N : ℕ) (y : Ode.Vec F.N × Ode.Vec F.m) : Prop where
  size : ∀ k < N, dt k ≠ 0
  smooth : ∀ k < N, Smooth F b pos (time t0 dt (k + 1)) (z y (k + 1)).1 (z y (k + 1)).2 y.2
  symmetric : ∀ k < N, C30.Symmetric (F.rateMatrix pos old (time t0 dt (k + 1)) (z y (k + 1)).1 (z y (k + 1)).2 y.2)
  regular : ∀ k < N, ∀ w, Elim.mulVec (Elim.elim (Adj.addMat (F.rateMatrix pos old (time t0 dt (k + 1)) (z y (k + 1)).1 (z y (k + 1)).2 y.2) (dt k)
    (F.fieldMatrix pos old (time t0 dt (k + 1)) (z y (k + 1)).1 (z y (k + 1)).2 y.2)) conds.flatten) w = 0 → w = 0
  near : ∀ k < N, ContinuousAt (fun y' => (z y' (k + 1)).2) y
  solved : ∀ k < N, ∀ᶠ y' in nhds y, (∀ i ∈ conds.flatten, (z y' (k + 1)).1 i = (z y (k + 1)).1 i) ∧
    ∀ i ∉ conds.flatten, F.residual pos (time t0 dt (k + 1)) (z y' (k + 1)).1 (z y' (k + 1)).2 y'.2 i = 0

/-- **C88, gradients of transient analyses.** -/
theorem C88_transient (h : Sound F b) {solve : ℝ → ℝ → Ode.Vec F.m → Ode.Vec F.N → Ode.Vec F.N} {y : Ode.Vec F.N × Ode.Vec F.m}
    (hR : March F b pos old conds (C87.traj (F.transient pos old old' conds solve linear) t0 dt) t0 dt N y) (hl : C78.Exact linear)
    (J : (Fin N → Ode.Vec F.N × Ode.Vec F.N) → ℝ) (load : ℕ → Adj.HeatLoad F.N) (hf : C87.Fresh load N)
    (hJ : C87.Gradient J (fun k => C87.traj (F.transient pos old old' conds solve linear) t0 dt y (k + 1)) load) :
    ∃ r, TransientAdj.pass (F.transient pos old old' conds solve linear) y.2 (C87.loads load N)
        (TransientAdj.forward (F.transient pos old old' conds solve linear) y.2 (C59.steps dt N) (TransientAdj.start t0 y.1)) = some r ∧
      ∃ L : (Ode.Vec F.N × Ode.Vec F.m) →L[ℝ] ℝ, HasFDerivAt (fun y' => J fun k : Fin N => C87.traj (F.transient pos old old' conds solve linear) t0 dt y' (k + 1)) L y ∧
        ∀ v w, (∀ i ∈ conds.flatten, v i = 0) → L (v, w) = r.2.adj.D ⬝ᵥ v + r.1.sum ⬝ᵥ w := by
  refine C87.C87_transient (G := fun t z => F.residual pos t z.1 z.2.1 z.2.2) ⟨hR.size, fun k hk => ?_, hR.symmetric, hR.regular, hR.near, hR.solved⟩ hl J load hf hJ
  obtain ⟨L, h1, h2⟩ := C88_derivative h (hR.smooth k hk) old old old'
  exact ⟨L, h1, fun v r w => funext fun i => h2 (v, r, w) i⟩

end Gradient
section Equal
variable {d : Dim}

theorem face_two {c : ℕ} (f : Face2 → Option (Vec ℝ c)) (qf : FaceArg .two c → Option (Vec ℝ c)) (X : FacePoint .two) (z : FaceArg .two c)
    (h : qf ((addV X.1 z.1.1, addM X.2 z.1.2), z.2) = f (add2 (line X) (line z.1))) : weigh2 (shaped2 f (line z.1)) (line X) = facePoint qf X z := by
  unfold weigh2 shaped2 facePoint
  rw [h]
  cases f (add2 (line X) (line z.1)) with
  | none => rfl
  | some r =>
    simp only [Option.bind_some]
    change Option.map _ (if Transform.norm (crossAt .two X.2) = 0 then none else some _) = if Transform.norm (crossAt .two X.2) = 0 then none else some _
    by_cases hX : Transform.norm (crossAt .two X.2) = 0
    · rw [if_pos hX, if_pos hX]; rfl
    · rw [if_neg hX, if_neg hX]; rfl

theorem face_three {c : ℕ} (f : Face3 → Option (Vec ℝ c)) (qf : FaceArg .three c → Option (Vec ℝ c)) (X : FacePoint .three) (z : FaceArg .three c)
    (h : qf ((addV X.1 z.1.1, addM X.2 z.1.2), z.2) = f (add3 X z.1)) : weigh3 (shaped3 f z.1) X = facePoint qf X z := by
  unfold weigh3 shaped3 facePoint
  rw [h]
  cases f (add3 X z.1) with
  | none => rfl
  | some r =>
    simp only [Option.bind_some]
    change Option.map _ (if Transform.norm (crossAt .three X.2) = 0 then none else some _) = if Transform.norm (crossAt .three X.2) = 0 then none else some _
    by_cases hX : Transform.norm (crossAt .three X.2) = 0
    · rw [if_pos hX, if_pos hX]; rfl
    · rw [if_neg hX, if_neg hX]; rfl

theorem load_eq (on : Bool) (t : ℝ) (X p u : FacePoint d) (l : Load d) : shapedLoad on t X p u l = facePoint (loadQf on l t) X (p, u) := by
  cases l with
  | traction e f =>
    cases d
    · exact face_two _ _ X (p, u) rfl
    · exact face_three _ _ X (p, u) rfl
  | pressure e f =>
    cases d
    · refine face_two _ _ X (p, u) ?_
      cases on <;> rfl
    · refine face_three _ _ X (p, u) ?_
      cases on <;> rfl

theorem flux_eq (f : Vec ℝ d.n → Vec ℝ d.n → ℝ → ℝ → ℝ) (t : ℝ) (X p : FacePoint d) (u : FaceField d 1) : shapedFlux d f t (u.1 0) X p = facePoint (fluxQf f t) X (p, u) := by
  cases d
  · exact face_two _ _ X (p, u) rfl
  · exact face_three _ _ X (p, u) rfl

theorem foldl_apply {n : ℕ} {A : Type} (l : List A) (g : A → Ode.Vec n) (r : Ode.Vec n) (k : Fin n) :
    l.foldl (fun r x => r + g x) r k = l.foldl (fun s x => s + g x k) (r k) := by
  induction l generalizing r with
  | nil => rfl
  | cons x l ih => exact ih _

theorem folds {A B : Type} (l : List A) (f : A → B) {g : B → ℝ} {g' : A → ℝ} {r r' : ℝ} (hg : ∀ a, g (f a) = g' a) (hr : r = r') :
    (l.map f).foldl (fun s x => s + g x) r = l.foldl (fun s x => s + g' x) r' := by
  subst hr
  rw [List.foldl_map]
  exact C79.foldl_congr l (fun a _ s => by rw [hg]) r

/-- The functional built from a solid is its residual. -/
theorem solid_residual (B : Part d) (V : Space) (m : ℕ) (numP : Fin V.np × Fin d.n ≃ Fin m) (D : SolidSlopes d) (pos : B.Positions) (t : ℝ) (u a : Ode.Vec B.N) (q : Ode.Vec m) :
    (B.form V m numP D).residual pos t u a q = B.residual V pos ((B.form V m numP D).shape q) t u a := by
  funext k
  refine Eq.trans ?_ (foldl_apply B.loads _ _ k).symm
  refine folds B.loads _ (fun l => ?_) ?_
  · have e : (B.form V m numP D).faceFn pos ⟨l.elements, loadQf B.on l, D.load l⟩ t q = B.loadFn V pos ((B.form V m numP D).shape q) l t := by
      funext k v g
      unfold Form.faceFn Part.loadFn
      simp only [load_eq]
      rfl
    exact congrArg (fun f => scatterE B.EF.ndof B.M.nf B.connF (evalKernel B.EF B.EF d.n d.n false true f l.elements (gatherE B.EF.ndof B.connF fun n i => u (B.num (n, i))) fun _ => 0)
      (B.num.symm k).1 (B.num.symm k).2) e
  · refine congrArg (fun f => scatterE B.E.ndof B.M.ne B.conn f (B.num.symm k).1 (B.num.symm k).2) ?_
    refine (List.foldl_cons ..).trans ?_
    rw [List.foldl_map]
    rfl

/-- The functional built from heat transfer is its residual. -/
theorem heat_residual (C : Conductor d) (V : Space) (m : ℕ) (numP : Fin V.np × Fin d.n ≃ Fin m) (D : HeatSlopes d) (pos : C.Positions) (t : ℝ) (u a : Ode.Vec C.nn) (q : Ode.Vec m) :
    (C.form V m numP D).residual pos t u a q = C.residual V pos ((C.form V m numP D).shape q) t u a := by
  funext k
  refine Eq.trans ?_ (foldl_apply C.fluxes _ _ k).symm
  refine folds C.fluxes _ (fun l => ?_) ?_
  · have e : (C.form V m numP D).faceFn pos ⟨l.elements, fluxQf l.f, D.flux l⟩ t q = C.fluxFn V pos ((C.form V m numP D).shape q) l t := by
      funext k v g
      unfold Form.faceFn Conductor.fluxFn
      dsimp only
      rw [← flux_eq]
      rfl
    exact congrArg (fun f => scatterE C.EF.ndof C.M.nf C.connF (evalKernel C.EF C.EF 1 1 false true f l.elements (gatherE C.EF.ndof C.connF fun n (_ : Fin 1) => u n) fun _ => 0)
      k (0 : Fin 1)) e
  · refine congrArg (fun f => scatterE (c := 1) C.E.ndof C.M.ne C.conn f k 0) ?_
    refine (List.foldl_cons ..).trans ?_
    rw [List.foldl_map]
    rfl
end Equal

section Slopes
variable {d : Dim}

/-- The functor of the stress. -/
theorem stress_slope (B : Part d) (A : Moduli d) (U : UserSlopes d) (p : ℕ) (y : Arg d d.n) (h : ∀ᶠ G in nhds y.2.1.2, (materialFlux (ops d) B.on (B.material p) G).isSome)
    (h' : SD (fun G => (materialFlux (ops d) B.on (B.material p) G).getD 0) (fun G i m => ∑ j, ∑ n, A p y.2.1.2 i m j n * G j n) y.2.1.2) :
    Slope (B.stressQf p) ((B.slopes A U).stress p y) y := by
  have hc : Filter.Tendsto (fun z : Arg d d.n => z.2.1.2) (nhds y) (nhds y.2.1.2) := (continuous_snd.comp (continuous_fst.comp continuous_snd)).continuousAt
  have hn := hc.eventually h
  constructor
  · filter_upwards [hn] with z hz
    unfold Part.stressQf stressFunctor
    rwa [Option.isSome_map]
  · have hs : SD (fun z : Arg d d.n => z.2.1.2) (fun w => w.2.1.2) y :=
      (SD.linear (ContinuousLinearMap.id ℝ (Arg d d.n)) y).snd.fst.snd
    have ha : SD (fun z : Arg d d.n => z.2.2.1) (fun w => w.2.2.1) y := (SD.linear (ContinuousLinearMap.id ℝ (Arg d d.n)) y).snd.snd.fst
    have h1 := SD.prod (SD.pi fun i => (ha.at i).const_mul B.density) (SD.chain (g := fun z : Arg d d.n => z.2.1.2) (x := y) h' hs)
    refine h1.congr_near ?_
    filter_upwards [hn] with z hz
    unfold Part.stressQf stressFunctor
    obtain ⟨F, hF⟩ := Option.isSome_iff_exists.1 hz
    rw [hF]
    rfl

theorem force_slope (f : BodyForce d) (B : Part d) (A : Moduli d) (U : UserSlopes d) (t : ℝ) (y : Arg d d.n) (h : SD (fun x => f.f x t) (U.body f t y.1.1) y.1.1) :
    Slope (Part.forceQf f t) ((B.slopes A U).force f t y) y := by
  have hx : SD (fun z : Arg d d.n => z.1.1) (fun w => w.1.1) y := (SD.linear (ContinuousLinearMap.id ℝ (Arg d d.n)) y).fst.fst
  exact ⟨Filter.Eventually.of_forall fun _ => rfl, SD.prod (SD.pi fun i => ((SD.chain (g := fun z : Arg d d.n => z.1.1) (x := y) h hx).at i).const_mul (-1)) (SD.const 0 y)⟩

section Quotients
variable {V : Type} [NormedAddCommGroup V] [NormedSpace ℝ V]

theorem sd_quot {n : ℕ} {f f' : V → Vec ℝ n} {g g' : V → ℝ} {x : V} (hf : SD f f' x) (hg : SD g g' x) (h0 : g x ≠ 0) :
    SD (fun y => divV (f y) (g y)) (fun v => quotD (f x) (f' v) (g x) (g' v)) x := by
  refine SD.pi fun i => ((hf.at i).mul (hg.inv h0)).congr (fun y => div_eq_mul_inv _ _) fun v => ?_
  unfold quotD
  field_simp
  ring

end Quotients

theorem sd_position {c : ℕ} (y : FaceArg d c) : SD (fun z : FaceArg d c => z.1.1) (fun w => w.1.1) y := (SD.linear (ContinuousLinearMap.id ℝ (FaceArg d c)) y).fst.fst
theorem sd_tangents {c : ℕ} (y : FaceArg d c) : SD (fun z : FaceArg d c => z.1.2) (fun w => w.1.2) y := (SD.linear (ContinuousLinearMap.id ℝ (FaceArg d c)) y).fst.snd

theorem near_face {c : ℕ} {y : FaceArg d c} (h : Transform.norm (crossAt d y.1.2) ≠ 0) : ∀ᶠ z : FaceArg d c in nhds y, Transform.norm (crossAt d z.1.2) ≠ 0 :=
  (sd_norm (sd_cross (sd_tangents y)) h).continuousAt.eventually_ne h

theorem sd_normal {c : ℕ} {y : FaceArg d c} (h : Transform.norm (crossAt d y.1.2) ≠ 0) :
    SD (fun z : FaceArg d c => divV (crossAt d z.1.2) (Transform.norm (crossAt d z.1.2)))
      (fun w => quotD (crossAt d y.1.2) (crossD d y.1.2 w.1.2) (Transform.norm (crossAt d y.1.2)) (normD (crossAt d y.1.2) (crossD d y.1.2 w.1.2))) y :=
  sd_quot (sd_cross (sd_tangents y)) (sd_norm (sd_cross (sd_tangents y)) h) h

/-- The unit normal of a face. -/
def unit {c : ℕ} (y : FaceArg d c) : Vec ℝ d.n := divV (crossAt d y.1.2) (Transform.norm (crossAt d y.1.2))

theorem traction_slope {f : Vec ℝ d.n → Vec ℝ d.n → ℝ → Vec ℝ d.n} {T : Vec ℝ d.n × Vec ℝ d.n → Vec ℝ d.n × Vec ℝ d.n → Vec ℝ d.n} {t : ℝ} {y : FaceArg d d.n}
    (h0 : Transform.norm (crossAt d y.1.2) ≠ 0) (h : SD (fun z : Vec ℝ d.n × Vec ℝ d.n => f z.1 z.2 t) (T (y.1.1, unit y)) (y.1.1, unit y)) :
    SlopeF (tractionQf f t) (tractionD T y) y := by
  have e : ∀ᶠ z in nhds y, tractionQf f t z = some (smulV (f z.1.1 (unit z) t) (-1)) := by
    filter_upwards [near_face h0] with z hz
    unfold tractionQf faceNormal divN
    rw [if_neg hz]
    rfl
  constructor
  · filter_upwards [e] with z hz
    rw [hz]; rfl
  · have h1 := SD.chain (g := fun z : FaceArg d d.n => (z.1.1, unit z)) (x := y) h (SD.prod (sd_position y) (sd_normal h0))
    have h2 : SD (fun z : FaceArg d d.n => smulV (f z.1.1 (unit z) t) (-1)) (tractionD T y) y := SD.pi fun i => (h1.at i).mul_const (-1)
    refine h2.congr_near ?_
    filter_upwards [e] with z hz
    rw [hz]; rfl

theorem pressure_slope {on : Bool} {f : Vec ℝ d.n → ℝ → ℝ} {P : Vec ℝ d.n → ℝ} {t : ℝ} {y : FaceArg d d.n} (h0 : Transform.norm (crossAt d y.1.2) ≠ 0)
    (h : SD (fun x => f x t) P y.1.1) : SlopeF (pressureQf on f t) (pressureD on (f y.1.1 t) P y) y := by
  let cur : FaceArg d d.n → Mat ℝ d.n (faceDim d) := fun z => if on then addM (addM z.1.2 (smulM z.2.2 0)) z.2.2 else addM z.1.2 (smulM z.2.2 0)
  have hc : SD cur cur y := by
    have hu : SD (fun z : FaceArg d d.n => z.2.2) (fun w => w.2.2) y := (SD.linear (ContinuousLinearMap.id ℝ (FaceArg d d.n)) y).snd.snd
    have h1 : SD (fun z : FaceArg d d.n => addM z.1.2 (smulM z.2.2 0)) (fun w => addM w.1.2 (smulM w.2.2 0)) y :=
      SD.mat fun i j => ((sd_tangents y).entry i j).add ((hu.entry i j).mul_const 0)
    cases on
    · exact h1
    · exact SD.mat fun i j => (h1.entry i j).add (hu.entry i j)
  have e : ∀ᶠ z in nhds y, pressureQf on f t z = some (smulV (divV (crossAt d (cur z)) (Transform.norm (crossAt d z.1.2))) (f z.1.1 t)) := by
    filter_upwards [near_face h0] with z hz
    unfold pressureQf divN
    dsimp only
    rw [if_neg hz]
    rfl
  constructor
  · filter_upwards [e] with z hz
    rw [hz]; rfl
  · have h1 := sd_quot (sd_cross hc) (sd_norm (sd_cross (sd_tangents y)) h0) h0
    have h2 := SD.chain (g := fun z : FaceArg d d.n => z.1.1) (x := y) h (sd_position y)
    have h3 : SD (fun z : FaceArg d d.n => smulV (divV (crossAt d (cur z)) (Transform.norm (crossAt d z.1.2))) (f z.1.1 t)) (pressureD on (f y.1.1 t) P y) y :=
      SD.pi fun i => (h1.at i).mul h2
    refine h3.congr_near ?_
    filter_upwards [e] with z hz
    rw [hz]; rfl

theorem flux_slope {f : Vec ℝ d.n → Vec ℝ d.n → ℝ → ℝ → ℝ} {P : (Vec ℝ d.n × Vec ℝ d.n) × ℝ → ℝ} {t : ℝ} {y : FaceArg d 1} (h0 : Transform.norm (crossAt d y.1.2) ≠ 0)
    (h : SD (fun z : (Vec ℝ d.n × Vec ℝ d.n) × ℝ => f z.1.1 z.1.2 t z.2) P ((y.1.1, unit y), y.2.1 0)) :
    SlopeF (fluxQf f t) (fun w => fun _ => P ((w.1.1, quotD (crossAt d y.1.2) (crossD d y.1.2 w.1.2) (Transform.norm (crossAt d y.1.2))
      (normD (crossAt d y.1.2) (crossD d y.1.2 w.1.2))), w.2.1 0)) y := by
  have e : ∀ᶠ z in nhds y, fluxQf f t z = some fun _ => f z.1.1 (unit z) t (z.2.1 0) := by
    filter_upwards [near_face h0] with z hz
    unfold fluxQf faceNormal divN
    rw [if_neg hz]
    rfl
  constructor
  · filter_upwards [e] with z hz
    rw [hz]; rfl
  · have hu : SD (fun z : FaceArg d 1 => z.2.1) (fun w => w.2.1) y := (SD.linear (ContinuousLinearMap.id ℝ (FaceArg d 1)) y).snd.fst
    have h1 := SD.chain (g := fun z : FaceArg d 1 => ((z.1.1, unit z), z.2.1 0)) (x := y) h (SD.prod (SD.prod (sd_position y) (sd_normal h0)) (hu.at 0))
    refine (SD.pi fun _ => h1).congr_near ?_
    filter_upwards [e] with z hz
    rw [hz]; rfl

theorem material_some (C : Conductor d) (k : ℕ) (z : Arg d 1) {F : Vec ℝ d.n} (hF : (C.material k z.1).flux (z.2.1.1 0) (z.2.1.2 0) = some F) :
    C.materialQf k z.1 z.2.1 z.2.2 = some (fun _ => (C.material k z.1).capacity * z.2.2.1 0, fun _ i => -1 * F i) := by
  have h : Heat.thermalIntegrand (C.material k z.1) (z.2.1.1 0) (z.2.1.2 0) (z.2.2.1 0) = some ((C.material k z.1).capacity * z.2.2.1 0, fun i => -1 * F i) := by
    unfold Heat.thermalIntegrand
    rw [hF]
    rfl
  exact congrArg (Option.map fun r : ℝ × Vec ℝ d.n => ((fun _ => r.1, fun _ => r.2) : Vec ℝ 1 × Mat ℝ 1 d.n)) h

theorem material_slope (C : Conductor d) (U : HeatUser d) (k : ℕ) (y : Arg d 1) (hc : SD (fun x => (C.material k x).capacity) (U.capacity k y.1) y.1)
    (h : ∀ᶠ z : Point d × ℝ × Vec ℝ d.n in nhds (y.1, y.2.1.1 0, y.2.1.2 0), ((C.material k z.1).flux z.2.1 z.2.2).isSome)
    (h' : SD (fun z : Point d × ℝ × Vec ℝ d.n => ((C.material k z.1).flux z.2.1 z.2.2).getD 0) (U.flux k (y.1, y.2.1.1 0, y.2.1.2 0)) (y.1, y.2.1.1 0, y.2.1.2 0)) :
    Slope (C.materialQf k) ((C.slopes U).material k y) y := by
  have hid : SD (fun z : Arg d 1 => z) (fun w => w) y := SD.linear (ContinuousLinearMap.id ℝ (Arg d 1)) y
  have hz : SD (fun z : Arg d 1 => ((z.1, z.2.1.1 0, z.2.1.2 0) : Point d × ℝ × Vec ℝ d.n)) (fun w => (w.1, w.2.1.1 0, w.2.1.2 0)) y :=
    SD.prod hid.fst (SD.prod (hid.snd.fst.fst.at 0) (SD.pi fun j => hid.snd.fst.snd.entry 0 j))
  have hn := hz.continuousAt.eventually h
  constructor
  · filter_upwards [hn] with z hz
    obtain ⟨F, hF⟩ := Option.isSome_iff_exists.1 hz
    rw [material_some C k z hF]
    rfl
  · have h1 := SD.chain (g := fun z : Arg d 1 => ((z.1, z.2.1.1 0, z.2.1.2 0) : Point d × ℝ × Vec ℝ d.n)) (x := y) h' hz
    have h2 := (SD.chain (g := fun z : Arg d 1 => z.1) (x := y) hc hid.fst).mul (hid.snd.snd.fst.at 0)
    have h3 : SD (fun z : Arg d 1 => ((fun _ => (C.material k z.1).capacity * z.2.2.1 0, fun _ i => -1 * ((C.material k z.1).flux (z.2.1.1 0) (z.2.1.2 0)).getD 0 i) : Field d 1))
        ((C.slopes U).material k y) y := SD.prod (SD.pi fun _ => h2) (SD.mat fun _ i => (h1.at i).const_mul (-1))
    refine h3.congr_near ?_
    filter_upwards [hn] with z hz
    obtain ⟨F, hF⟩ := Option.isSome_iff_exists.1 hz
    rw [material_some C k z hF, hF]
    rfl

theorem source_slope (C : Conductor d) (U : HeatUser d) (s : Source d) (t : ℝ) (y : Arg d 1)
    (h : SD (fun z : Point d × ℝ × Vec ℝ d.n => s.f z.1 t z.2.1 z.2.2) (U.source s t (y.1, y.2.1.1 0, y.2.1.2 0)) (y.1, y.2.1.1 0, y.2.1.2 0)) :
    Slope (Conductor.sourceQf s t) ((C.slopes U).source s t y) y := by
  have hid : SD (fun z : Arg d 1 => z) (fun w => w) y := SD.linear (ContinuousLinearMap.id ℝ (Arg d 1)) y
  have hz : SD (fun z : Arg d 1 => ((z.1, z.2.1.1 0, z.2.1.2 0) : Point d × ℝ × Vec ℝ d.n)) (fun w => (w.1, w.2.1.1 0, w.2.1.2 0)) y :=
    SD.prod hid.fst (SD.prod (hid.snd.fst.fst.at 0) (SD.pi fun j => hid.snd.fst.snd.entry 0 j))
  have h1 := SD.chain (g := fun z : Arg d 1 => ((z.1, z.2.1.1 0, z.2.1.2 0) : Point d × ℝ × Vec ℝ d.n)) (x := y) h hz
  exact ⟨Filter.Eventually.of_forall fun _ => rfl, SD.prod (SD.pi fun _ => h1.const_mul (-1)) (SD.const 0 y)⟩

end Slopes

section Rates
variable {d : Dim} {c : ℕ} {F : Form d c} {b : Bases} {pos : F.Positions} {t : ℝ} {u a : Ode.Vec F.N} {q : Ode.Vec F.m}

theorem invD_zero {n : ℕ} (A : Mat ℝ n n) : invD A 0 = 0 := by
  ext i j
  simp [invD]

theorem detD_zero (A : Mat ℝ d.n d.n) : detD d A 0 = 0 := by
  cases d <;> simp [detD]

/-- A rate that only enters the source, times a factor: so it does on the reference element. -/
theorem tangent_rate {qf : Integrand d c} {D : Arg d c → Arg d c → Field d c} {X : Point d} {z : Arg d c} (hD : ∀ y, ∃ κ : ℝ, ∀ da, D y ((0, 0), (0, 0), da) = (κ • da.1, 0)) :
    ∃ κ : ℝ, ∀ da, pointTangent qf D X z ((0, 0), (0, 0), da) = (κ • da.1, 0) := by
  let Ji := (inv d X.2).getD 0
  let P := dot z.1.2 Ji
  let U := dot z.2.1.2 Ji
  let A := dot z.2.2.2 Ji
  let K := addM (identity d.n) P
  let Ki := (inv d K).getD 0
  let y : Arg d c := (shapedPosition d X.1 z.1.1 X.2 P, (z.2.1.1, dot U Ki), (z.2.2.1, dot A Ki))
  let r := (qf y.1 y.2.1 y.2.2).getD (0, 0)
  have hz : ∀ {l m n : ℕ} (B : Mat ℝ m n), dot (0 : Mat ℝ l m) B = 0 := fun B => by rw [dot_eq, Matrix.zero_mul]
  have hz' : ∀ {l m n : ℕ} (B : Mat ℝ l m), dot B (0 : Mat ℝ m n) = 0 := fun B => by rw [dot_eq, Matrix.mul_zero]
  obtain ⟨κ, hκ⟩ := hD y
  refine ⟨κ * det d K * det d (transpose X.2), fun da => ?_⟩
  let dP := dot (0 : Mat ℝ d.n d.n) Ji
  let dU := dot (0 : Mat ℝ c d.n) Ji
  let dA := dot da.2 Ji
  let dKi := invD Ki dP
  let dy : Arg d c := ((0, dot dP X.2), (0, addM (dot dU Ki) (dot U dKi)), (da.1, addM (dot dA Ki) (dot A dKi)))
  have hdP : dP = 0 := hz _
  have hdKi : dKi = 0 := (congrArg (invD Ki) hdP).trans (invD_zero Ki)
  have hdy : dy = ((0, 0), (0, 0), (da.1, addM (dot dA Ki) (dot A dKi))) := by
    have h1 : dot dP X.2 = 0 := (congrArg (fun B => dot B X.2) hdP).trans (hz _)
    have h2 : addM (dot dU Ki) (dot U dKi) = 0 := by
      rw [hdKi, hz', show dU = 0 from hz _, hz, addM_eq, add_zero]
    exact Prod.ext (Prod.ext rfl h1) (Prod.ext (Prod.ext rfl h2) rfl)
  have hdr : D y dy = (κ • da.1, 0) := by rw [hdy]; exact hκ _
  have key : ∀ dr : Field d c, dr = (κ • da.1, 0) →
      ((smulV (fun i => dr.1 i * det d K + r.1 i * detD d K dP) (det d (transpose X.2)),
        smulM (dot (addM (smulM (addM (dot dr.2 (transpose Ki)) (dot r.2 (transpose dKi))) (det d K)) (smulM (dot r.2 (transpose Ki)) (detD d K dP)))
          ((inv d (transpose X.2)).getD 0)) (det d (transpose X.2))) : Field d c) = ((κ * det d K * det d (transpose X.2)) • da.1, 0) := by
    rintro dr rfl
    rw [hdP, hdKi, detD_zero]
    have hT : transpose (0 : Mat ℝ d.n d.n) = 0 := rfl
    rw [hT, hz, hz']
    refine Prod.ext ?_ ?_
    · funext i
      simp only [smulV, Pi.smul_apply, smul_eq_mul]
      ring
    · ext i j
      simp [smulM, addM, dot_eq, Matrix.mul_apply]
  exact key _ hdr

/-- The shape functions of a dof at a point. -/
def hat (F : Form d c) (b : Bases) (j : Fin F.N) (i : Fin c) (e Q : ℕ) : ℝ := C79.value b.phi F.E.ndof F.conn (F.nodal fun m => if m = j then 1 else 0) e Q i

theorem hat_eq (j : Fin F.N) (i : Fin c) (e Q : ℕ) : hat F b j i e Q = if i = (F.num.symm j).2 then ∑ x ∈ range F.E.ndof, (if F.conn e x = (F.num.symm j).1 then 1 else 0) * b.phi Q x else 0 := by
  unfold hat C79.value Form.nodal
  split_ifs with h
  · refine sum_congr rfl fun x _ => ?_
    congr 1
    beta_reduce
    have e1 : F.num (F.conn e x, i) = j ↔ F.conn e x = (F.num.symm j).1 := by
      rw [← Equiv.eq_symm_apply, Prod.ext_iff]
      exact ⟨fun h => h.1, fun h1 => ⟨h1, h⟩⟩
    by_cases hx : F.conn e x = (F.num.symm j).1
    · rw [if_pos hx, if_pos (e1.2 hx)]
    · rw [if_neg hx, if_neg fun h' => hx (e1.1 h')]
  · refine sum_eq_zero fun x _ => ?_
    beta_reduce
    rw [if_neg fun h' => h ?_, zero_mul]
    have := (Equiv.eq_symm_apply F.num).2 h'
    exact congrArg Prod.snd this

/-- **C88, mass.**  If the rate enters every integrand through its source and times a factor (heat capacity, density), the gradient with respect to the rate is symmetric. -/
theorem C88_rate_symmetric (h : Sound F b) (hD : ∀ T ∈ F.terms, ∀ k y, ∃ κ : ℝ, ∀ da, T.D k t y ((0, 0), (0, 0), da) = (κ • da.1, 0)) (o : Buffer ℝ) :
    C30.Symmetric (F.rateMatrix pos o t u a q) := by
  have hd : 0 < F.E.dim := by rw [h.dim]; cases d <;> decide
  -- the factor at a point
  have hκ : ∀ (T : DomainTerm d c) (ee : ℕ × ℕ) (Q : ℕ), ∃ κ : ℝ, T ∈ F.terms → ∀ da,
      pointTangent (T.qf (ee.2 * F.E.npts + Q) t) (T.D (ee.2 * F.E.npts + Q) t) (F.at_ pos ee.1 Q) (F.argsAt u a q ee.1 Q) ((0, 0), (0, 0), da) = (κ • da.1, 0) := by
    intro T ee Q
    by_cases hT : T ∈ F.terms
    · obtain ⟨κ, hκ⟩ := tangent_rate (qf := T.qf (ee.2 * F.E.npts + Q) t) (X := F.at_ pos ee.1 Q) (z := F.argsAt u a q ee.1 Q) (hD T hT (ee.2 * F.E.npts + Q))
      exact ⟨κ, fun _ => hκ⟩
    · exact ⟨0, fun h' => absurd h' hT⟩
  choose κ hκ using hκ
  have entry : ∀ k j : Fin F.N, F.rateMatrix pos o t u a q k j = ∑ e ∈ range F.M.ne, (F.terms.map fun T => (T.elements.zipIdx.map fun ee => if ee.1 = e then
      ∑ Q ∈ range F.E.npts, b.wt Q * κ T ee Q * (hat F b j (F.num.symm k).2 e Q * ∑ x ∈ range F.E.ndof, (if F.conn e x = (F.num.symm k).1 then 1 else 0) * b.phi Q x)
      else 0).sum).sum := by
    intro k j
    have g := gradient_mul (ne := F.M.ne) h.test h.trial h.comps hd rfl F.terms Form.domainShape (F.rateBuffer pos o t u a q) (fun T => T.elements) F.conn F.conn F.num
      (fun m => if m = j then 1 else 0) (F.num.symm k)
    have g' : F.rateMatrix pos o t u a q k j = _ := (by simp [Form.rateMatrix] : F.rateMatrix pos o t u a q k j =
      ∑ j', F.rateMatrix pos o t u a q k j' * if j' = j then 1 else 0).trans g.symm
    rw [g']
    unfold scatterE
    refine sum_congr rfl fun e _ => ?_
    have inner : ∀ x ∈ range F.E.ndof, (F.terms.foldl (fun r T => actionKernel F.E F.E c c (Form.domainShape T) (F.rateBuffer pos o t u a q T) T.elements
        (gatherE F.E.ndof F.conn fun n i => if F.num (n, i) = j then 1 else 0) r) fun _ => 0) (e * (c * F.E.ndof) + ((F.num.symm k).2 * F.E.ndof + x)) =
        (F.terms.map fun T => (T.elements.zipIdx.map fun ee => if ee.1 = e then
          ∑ Q ∈ range F.E.npts, b.wt Q * κ T ee Q * (hat F b j (F.num.symm k).2 e Q * b.phi Q x) else 0).sum).sum := by
      intro x hx
      rw [actions_at h.test h.comps hd rfl _ _ _ _ _ _ _ _ (mem_range.1 hx), zero_add]
      congr 1
      refine List.map_congr_left fun T hT => ?_
      have hl : ∀ (ee : ℕ × ℕ) (Q : ℕ), (∀ y z : Field d c, pointTangent (T.qf (ee.2 * F.E.npts + Q) t) (T.D (ee.2 * F.E.npts + Q) t) (F.at_ pos ee.1 Q) (F.argsAt u a q ee.1 Q) ((0, 0), (0, 0), y + z) =
          pointTangent (T.qf (ee.2 * F.E.npts + Q) t) (T.D (ee.2 * F.E.npts + Q) t) (F.at_ pos ee.1 Q) (F.argsAt u a q ee.1 Q) ((0, 0), (0, 0), y) +
          pointTangent (T.qf (ee.2 * F.E.npts + Q) t) (T.D (ee.2 * F.E.npts + Q) t) (F.at_ pos ee.1 Q) (F.argsAt u a q ee.1 Q) ((0, 0), (0, 0), z)) ∧
          ∀ (r : ℝ) (y : Field d c), pointTangent (T.qf (ee.2 * F.E.npts + Q) t) (T.D (ee.2 * F.E.npts + Q) t) (F.at_ pos ee.1 Q) (F.argsAt u a q ee.1 Q) ((0, 0), (0, 0), r • y) =
          r • pointTangent (T.qf (ee.2 * F.E.npts + Q) t) (T.D (ee.2 * F.E.npts + Q) t) (F.at_ pos ee.1 Q) (F.argsAt u a q ee.1 Q) ((0, 0), (0, 0), y) := by
        intro ee Q
        constructor
        · intro y z
          rw [hκ T ee Q hT, hκ T ee Q hT, hκ T ee Q hT]
          exact Prod.ext (smul_add _ _ _) (add_zero _).symm
        · intro r y
          rw [hκ T ee Q hT, hκ T ee Q hT]
          exact Prod.ext (smul_comm _ _ _) (smul_zero _).symm
      refine (summed_congr (src' := fun ee Q => κ T ee Q * hat F b j (F.num.symm k).2 ee.1 Q) (flx' := fun _ _ _ => 0) (fun ee hee Q hQ => ?_) fun ee hee Q hQ l hl' => ?_).trans ?_
      · unfold Form.rateBuffer
        rw [C77.store_at _ _ _ hee hQ]
        unfold Form.rateGrad Form.domainShape
        dsimp only
        rw [(C79.point_index hQ).1, (C79.point_index hQ).2, C71.getD_zipIdx hee]
        refine (entries_source (L := fun da => pointTangent (T.qf (ee.2 * F.E.npts + Q) t) (T.D (ee.2 * F.E.npts + Q) t) (F.at_ pos ee.1 Q) (F.argsAt u a q ee.1 Q) ((0, 0), (0, 0), da))
          (hl ee Q).1 (hl ee Q).2 h.dim T.zf _ _ _).trans ?_
        rw [hκ T ee Q hT]
        change κ T ee Q * _ = _
        congr 1
        exact C77.value_at h.trial _ _ _ _ _
      · rw [h.dim] at hl'
        unfold Form.rateBuffer
        rw [C77.store_at _ _ _ hee hQ]
        unfold Form.rateGrad Form.domainShape
        dsimp only
        rw [(C79.point_index hQ).1, (C79.point_index hQ).2, C71.getD_zipIdx hee]
        by_cases hz : T.zf
        · rw [hz, flux_none]
        · rw [Bool.not_eq_true _ |>.mp hz]
          refine (entries_flux (L := fun da => pointTangent (T.qf (ee.2 * F.E.npts + Q) t) (T.D (ee.2 * F.E.npts + Q) t) (F.at_ pos ee.1 Q) (F.argsAt u a q ee.1 Q) ((0, 0), (0, 0), da))
            (hl ee Q).1 (hl ee Q).2 h.dim _ _ (F.num.symm k).2 ⟨l, hl'⟩).trans ?_
          rw [hκ T ee Q hT]
          rfl
      · unfold summed C51.weigh
        congr 1
        refine List.map_congr_left fun ee _ => ?_
        split_ifs with he
        · subst he
          refine sum_congr rfl fun Q _ => ?_
          simp only [zero_mul, sum_const_zero, add_zero]
          ring
        · rfl
    rw [sum_congr rfl fun x hx => by rw [inner x hx]]
    have push : ∀ (l : List (DomainTerm d c)), ∑ x ∈ range F.E.ndof, (if F.conn e x = (F.num.symm k).1 then (l.map fun T => (T.elements.zipIdx.map fun ee => if ee.1 = e then
        ∑ Q ∈ range F.E.npts, b.wt Q * κ T ee Q * (hat F b j (F.num.symm k).2 e Q * b.phi Q x) else 0).sum).sum else 0) =
        (l.map fun T => (T.elements.zipIdx.map fun ee => if ee.1 = e then
          ∑ Q ∈ range F.E.npts, b.wt Q * κ T ee Q * (hat F b j (F.num.symm k).2 e Q * ∑ x ∈ range F.E.ndof, (if F.conn e x = (F.num.symm k).1 then 1 else 0) * b.phi Q x) else 0).sum).sum := by
      have pull : ∀ {ι : Type} (l : List ι) (f : ι → ℕ → ℝ) (g : ι → ℝ), (∀ i, ∑ x ∈ range F.E.ndof, (if F.conn e x = (F.num.symm k).1 then f i x else 0) = g i) →
          ∑ x ∈ range F.E.ndof, (if F.conn e x = (F.num.symm k).1 then (l.map fun i => f i x).sum else 0) = (l.map g).sum := by
        intro ι l f g hfg
        induction l with
        | nil => simp
        | cons i l ih =>
          simp only [List.map_cons, List.sum_cons]
          rw [← ih, ← hfg i, ← sum_add_distrib]
          exact sum_congr rfl fun x _ => by split_ifs <;> simp
      intro l
      refine pull l _ _ fun T => pull _ _ _ fun ee => ?_
      split_ifs with he
      · simp only [mul_sum, ite_mul, one_mul, zero_mul, mul_ite, mul_zero]
        rw [sum_comm]
        refine sum_congr rfl fun x _ => ?_
        split_ifs <;> simp
      · simp
    exact push F.terms
  intro k j
  rw [entry k j, entry j k]
  refine sum_congr rfl fun e _ => ?_
  congr 1
  refine List.map_congr_left fun T _ => ?_
  congr 1
  refine List.map_congr_left fun ee _ => ?_
  split_ifs with he
  · refine sum_congr rfl fun Q _ => ?_
    congr 1
    rw [hat_eq, hat_eq]
    by_cases hi : (F.num.symm k).2 = (F.num.symm j).2
    · rw [if_pos hi, if_pos hi.symm, mul_comm]
    · rw [if_neg hi, if_neg fun h' => hi h'.symm, zero_mul, zero_mul]
  · rfl

end Rates

/-! ## Solids and heat transfer -/

/-- From shape displacements to positions of nodes. -/
theorem by_positions {N m np ng r : ℕ} {R : Ode.Vec m → Ode.Vec N} {L : Ode.Vec m →L[ℝ] Ode.Vec N} {q : Ode.Vec m} (hR : HasStrictFDerivAt R L q)
    (num : Fin np × Fin r ≃ Fin m) (σ : Fin ng ≃ Fin np) {S : (Fin ng → Fin r → ℝ) → Ode.Vec N} {pos : Fin ng → Fin r → ℝ}
    (hS : ∀ q', S (fun n => pos n + fun i => q' (num (σ n, i))) = R q') :
    ∃ L' : (Fin ng → Fin r → ℝ) →L[ℝ] Ode.Vec N, HasStrictFDerivAt S L' (fun n => pos n + fun i => q (num (σ n, i))) ∧
      ∀ w, L' w = L fun j => w (σ.symm (num.symm j).1) (num.symm j).2 := by
  let M : (Fin ng → Fin r → ℝ) →L[ℝ] Ode.Vec m := ContinuousLinearMap.pi fun j =>
    (ContinuousLinearMap.proj (R := ℝ) (φ := fun _ : Fin r => ℝ) (num.symm j).2).comp (ContinuousLinearMap.proj (R := ℝ) (φ := fun _ : Fin ng => Fin r → ℝ) (σ.symm (num.symm j).1))
  refine ⟨L.comp M, ?_, fun w => rfl⟩
  have e : S = fun x => R (M x - M pos) := by
    funext x
    rw [← hS]
    congr 1
    funext n i
    have : (M x - M pos) (num (σ n, i)) = x n i - pos n i := by
      change x (σ.symm (num.symm (num (σ n, i))).1) (num.symm (num (σ n, i))).2 - pos (σ.symm (num.symm (num (σ n, i))).1) (num.symm (num (σ n, i))).2 = _
      simp
    change _ = pos n i + (M x - M pos) (num (σ n, i))
    rw [this]
    ring
  have e' : M (fun n => pos n + fun i => q (num (σ n, i))) - M pos = q := by
    funext j
    change (pos (σ.symm (num.symm j).1) (num.symm j).2 + q (num (σ (σ.symm (num.symm j).1), (num.symm j).2))) - pos (σ.symm (num.symm j).1) (num.symm j).2 = q j
    rw [Equiv.apply_symm_apply, show ((num.symm j).1, (num.symm j).2) = num.symm j from rfl, Equiv.apply_symm_apply]
    ring
  rw [e]
  rw [← e'] at hR
  exact HasStrictFDerivAt.comp (g := R) (f := fun x => M x - M pos) _ hR (M.hasStrictFDerivAt.sub_const _)

section Solids
variable {d : Dim} (B : Part d) (V : Space) (m : ℕ) (numP : Fin V.np × Fin d.n ≃ Fin m) (b : Bases) (A : Moduli d) (U : UserSlopes d)

/-- Spec: position, displacement and acceleration with their derivatives, as the integrands of the displaced solid see them at a point of an element, of a face. -/
def inSolid (pos : B.Positions) (u a : Ode.Vec B.N) (q : Ode.Vec m) (e Q : ℕ) : Arg d d.n :=
  seen (place (B.form V m numP (B.slopes A U)) b pos e Q) (fields (B.form V m numP (B.slopes A U)) b u a q e Q)
def onSolid (pos : B.Positions) (u : Ode.Vec B.N) (q : Ode.Vec m) (e Q : ℕ) : FaceArg d d.n :=
  seenF (placeF (B.form V m numP (B.slopes A U)) b pos e Q) (fieldsF (B.form V m numP (B.slopes A U)) b u q e Q)

/-- Spec: the mesh is regular before and after the displacement; `A` is the derivative of the flux of the material, and the slopes given for body forces, tractions and
pressures are their derivatives with respect to position and normal. -/
structure Elastic (pos : B.Positions) (t : ℝ) (u a : Ode.Vec B.N) (q : Ode.Vec m) : Prop where
  mesh : C79.AllRegular B b.toFunctions pos
  moved : ∀ e ∈ B.elements, ∀ Q < B.E.npts, (inSolid B V m numP b A U pos u a q e Q).1.2.det ≠ 0
  movedB : ∀ f ∈ B.forces, ∀ e ∈ f.elements, ∀ Q < B.E.npts, (inSolid B V m numP b A U pos u a q e Q).1.2.det ≠ 0
  movedF : ∀ l ∈ B.loads, ∀ e ∈ l.elements, ∀ Q < B.EF.npts, C75.area d (onSolid B V m numP b A U pos u q e Q).1.2 ≠ 0
  flux : ∀ ee ∈ B.elements.zipIdx, ∀ Q < B.E.npts,
    let p := ee.2 * B.E.npts + Q
    let H := (inSolid B V m numP b A U pos u a q ee.1 Q).2.1.2
    (∀ᶠ G in nhds H, (materialFlux (ops d) B.on (B.material p) G).isSome) ∧
      SD (fun G => (materialFlux (ops d) B.on (B.material p) G).getD 0) (fun G i l => ∑ j, ∑ n, A p H i l j n * G j n) H
  body : ∀ f ∈ B.forces, ∀ e ∈ f.elements, ∀ Q < B.E.npts,
    let x := (inSolid B V m numP b A U pos u a q e Q).1.1
    SD (fun x => f.f x t) (U.body f t x) x
  traction : ∀ l f, Load.traction l f ∈ B.loads → ∀ e ∈ l, ∀ Q < B.EF.npts,
    let y := onSolid B V m numP b A U pos u q e Q
    SD (fun z : Vec ℝ d.n × Vec ℝ d.n => f z.1 z.2 t) (U.traction f t (y.1.1, unit y)) (y.1.1, unit y)
  pressure : ∀ l f, Load.pressure l f ∈ B.loads → ∀ e ∈ l, ∀ Q < B.EF.npts,
    let x := (onSolid B V m numP b A U pos u q e Q).1.1
    SD (fun x => f x t) (U.pressure f t x) x

variable {B V m numP b A U} {pos : B.Positions} {t : ℝ} {u a : Ode.Vec B.N} {q : Ode.Vec m}

theorem Elastic.smooth (h : Elastic B V m numP b A U pos t u a q) : Smooth (B.form V m numP (B.slopes A U)) b pos t u a q := by
  refine ⟨?_, ?_, ?_, ?_, ?_, ?_⟩
  · intro T hT e he Q hQ
    rcases List.mem_cons.1 hT with rfl | hT
    · exact h.mesh.material e he Q hQ
    · obtain ⟨f, hf, rfl⟩ := List.mem_map.1 hT
      exact h.mesh.forces f hf e he Q hQ
  · intro T hT e he Q hQ
    rcases List.mem_cons.1 hT with rfl | hT
    · exact h.moved e he Q hQ
    · obtain ⟨f, hf, rfl⟩ := List.mem_map.1 hT
      exact h.movedB f hf e he Q hQ
  · intro T hT ee hee Q hQ
    rcases List.mem_cons.1 hT with rfl | hT
    · exact stress_slope B A U _ _ (h.flux ee hee Q hQ).1 (h.flux ee hee Q hQ).2
    · obtain ⟨f, hf, rfl⟩ := List.mem_map.1 hT
      exact force_slope f B A U t _ (h.body f hf ee.1 (C71.mem_zipIdx_fst hee) Q hQ)
  · intro T hT e he Q hQ
    obtain ⟨l, hl, rfl⟩ := List.mem_map.1 hT
    exact h.mesh.loads l hl e he Q hQ
  · intro T hT e he Q hQ
    obtain ⟨l, hl, rfl⟩ := List.mem_map.1 hT
    exact h.movedF l hl e he Q hQ
  · intro T hT ee hee Q hQ
    obtain ⟨l, hl, rfl⟩ := List.mem_map.1 hT
    have h0 := norm_ne (h.movedF l hl ee.1 (C71.mem_zipIdx_fst hee) Q hQ)
    cases l with
    | traction e f => exact traction_slope h0 (h.traction e f hl ee.1 (C71.mem_zipIdx_fst hee) Q hQ)
    | pressure e f => exact pressure_slope h0 (h.pressure e f hl ee.1 (C71.mem_zipIdx_fst hee) Q hQ)

/-- **C88, solids.**  The assembled gradients with respect to displacement, acceleration and shape displacement are the derivatives of the residual of
`Verif.Model.ShapedResidual`. -/
theorem C88_solid (hS : Sound (B.form V m numP (B.slopes A U)) b) (h : Elastic B V m numP b A U pos t u a q) (o1 o2 o3 : Buffer ℝ) :
    ∃ L : (Ode.Vec B.N × Ode.Vec B.N × Ode.Vec m) →L[ℝ] Ode.Vec B.N,
      HasStrictFDerivAt (fun z : Ode.Vec B.N × Ode.Vec B.N × Ode.Vec m => B.residual V pos (fun n i => z.2.2 (numP (n, i))) t z.1 z.2.1) L (u, a, q) ∧ ∀ w k, L w k =
        ∑ j, (B.form V m numP (B.slopes A U)).fieldMatrix pos o1 t u a q k j * w.1 j + ∑ j, (B.form V m numP (B.slopes A U)).rateMatrix pos o2 t u a q k j * w.2.1 j +
          ∑ j, (B.form V m numP (B.slopes A U)).shapeMatrix pos o3 t u a q k j * w.2.2 j := by
  obtain ⟨L, h1, h2⟩ := C88_derivative hS h.smooth o1 o2 o3
  have e : (fun z : Dofs (B.form V m numP (B.slopes A U)) => (B.form V m numP (B.slopes A U)).residual pos t z.1 z.2.1 z.2.2) =
      fun z : Ode.Vec B.N × Ode.Vec B.N × Ode.Vec m => B.residual V pos (fun n i => z.2.2 (numP (n, i))) t z.1 z.2.1 :=
    funext fun z => solid_residual B V m numP (B.slopes A U) pos t z.1 z.2.1 z.2.2
  exact ⟨L, e ▸ h1, h2⟩

/-- The derivative by the shape displacement alone. -/
theorem shape_strict {d : Dim} {c : ℕ} {F : Form d c} {b : Bases} {pos : F.Positions} {t : ℝ} {u a : Ode.Vec F.N} {q : Ode.Vec F.m} (h : Sound F b) (hs : Smooth F b pos t u a q)
    (o : Buffer ℝ) : ∃ L : Ode.Vec F.m →L[ℝ] Ode.Vec F.N, HasStrictFDerivAt (fun q' => F.residual pos t u a q') L q ∧ ∀ w k, L w k = ∑ j, F.shapeMatrix pos o t u a q k j * w j := by
  obtain ⟨L, h1, h2⟩ := static_strict h hs o o
  refine ⟨L.comp (ContinuousLinearMap.inr ℝ _ _), ?_, fun w k => ?_⟩
  · have hE : HasStrictFDerivAt (fun q' : Ode.Vec F.m => ((u, q') : Ode.Vec F.N × Ode.Vec F.m)) (ContinuousLinearMap.inr ℝ _ _) q :=
      (hasStrictFDerivAt_const u q).prodMk (hasStrictFDerivAt_id q)
    exact HasStrictFDerivAt.comp (g := fun z : Ode.Vec F.N × Ode.Vec F.m => F.residual pos t z.1 a z.2) (f := fun q' : Ode.Vec F.m => (u, q')) q h1 hE
  · have e : L.comp (ContinuousLinearMap.inr ℝ _ _) w = L (0, w) := rfl
    rw [e, h2]
    have h3 : Elim.mulVec (F.fieldMatrix pos o t u a q) 0 = 0 := by
      funext i
      simp [Elim.mulVec]
    rw [h3, zero_add]
    rfl

/-- **C88, positions of nodes (solids).**  If the shape displacement has the nodes of the mesh, the assembled gradient with respect to it is the derivative of the
residual of the solid without shape displacement with respect to the positions of its nodes, at the displaced positions. -/
theorem C88_positions (hS : Sound (B.form V m numP (B.slopes A U)) b) (h : Elastic B V m numP b A U pos t u a q) {σ : Fin B.M.ng ≃ Fin V.np}
    (hn : C79.SameNodes B.M V b.toFunctions σ) (o : Buffer ℝ) :
    ∃ L : (Fin B.M.ng → Fin d.n → ℝ) →L[ℝ] Ode.Vec B.N,
      HasStrictFDerivAt (fun x : Fin B.M.ng → Fin d.n → ℝ => (B.placed x).residual t u a) L (fun n => pos n + fun i => q (numP (σ n, i))) ∧
      ∀ w k, L w k = ∑ j, (B.form V m numP (B.slopes A U)).shapeMatrix pos o t u a q k j * w (σ.symm (numP.symm j).1) (numP.symm j).2 := by
  obtain ⟨L, h1, h2⟩ := shape_strict hS h.smooth o
  obtain ⟨L', h3, h4⟩ := by_positions (S := fun x => (B.placed x).residual t u a) (pos := pos) h1 numP σ fun q' =>
    ((solid_residual B V m numP (B.slopes A U) pos t u a q').trans
      (C79.C79_moved hS.mesh ⟨_, _, _, hS.test⟩ ⟨_, _, _, hS.testF⟩ h.mesh (C79.C79_nodes hn pos fun n i => q' (numP (n, i))) t u a)).symm
  exact ⟨L', h3, fun w k => (congrFun (h4 w) k).trans (h2 _ k)⟩

end Solids

section HeatTransfer
variable {d : Dim} (C : Conductor d) (V : Space) (m : ℕ) (numP : Fin V.np × Fin d.n ≃ Fin m) (b : Bases) (U : HeatUser d)

/-- Spec: position, temperature and rate as the integrands of the displaced body see them. -/
def inHeat (pos : C.Positions) (u a : Ode.Vec C.nn) (q : Ode.Vec m) (e Q : ℕ) : Arg d 1 :=
  seen (place (C.form V m numP (C.slopes U)) b pos e Q) (fields (C.form V m numP (C.slopes U)) b u a q e Q)
def onHeat (pos : C.Positions) (u : Ode.Vec C.nn) (q : Ode.Vec m) (e Q : ℕ) : FaceArg d 1 :=
  seenF (placeF (C.form V m numP (C.slopes U)) b pos e Q) (fieldsF (C.form V m numP (C.slopes U)) b u q e Q)

/-- Spec: the mesh is regular before and after the displacement, and the slopes given for the functions of the user are their derivatives. -/
structure Thermal (pos : C.Positions) (t : ℝ) (u a : Ode.Vec C.nn) (q : Ode.Vec m) : Prop where
  mesh : C79.AllRegularHeat C b.toFunctions pos
  moved : ∀ e ∈ C.elements, ∀ Q < C.E.npts, (inHeat C V m numP b U pos u a q e Q).1.2.det ≠ 0
  movedS : ∀ s ∈ C.sources, ∀ e ∈ s.elements, ∀ Q < C.E.npts, (inHeat C V m numP b U pos u a q e Q).1.2.det ≠ 0
  movedF : ∀ l ∈ C.fluxes, ∀ e ∈ l.elements, ∀ Q < C.EF.npts, C75.area d (onHeat C V m numP b U pos u q e Q).1.2 ≠ 0
  capacity : ∀ ee ∈ C.elements.zipIdx, ∀ Q < C.E.npts,
    let p := ee.2 * C.E.npts + Q
    let x := (inHeat C V m numP b U pos u a q ee.1 Q).1
    SD (fun x => (C.material p x).capacity) (U.capacity p x) x
  flux : ∀ ee ∈ C.elements.zipIdx, ∀ Q < C.E.npts,
    let p := ee.2 * C.E.npts + Q
    let y := inHeat C V m numP b U pos u a q ee.1 Q
    let z : Point d × ℝ × Vec ℝ d.n := (y.1, y.2.1.1 0, y.2.1.2 0)
    (∀ᶠ z in nhds z, ((C.material p z.1).flux z.2.1 z.2.2).isSome) ∧ SD (fun z : Point d × ℝ × Vec ℝ d.n => ((C.material p z.1).flux z.2.1 z.2.2).getD 0) (U.flux p z) z
  source : ∀ s ∈ C.sources, ∀ e ∈ s.elements, ∀ Q < C.E.npts,
    let y := inHeat C V m numP b U pos u a q e Q
    let z : Point d × ℝ × Vec ℝ d.n := (y.1, y.2.1.1 0, y.2.1.2 0)
    SD (fun z : Point d × ℝ × Vec ℝ d.n => s.f z.1 t z.2.1 z.2.2) (U.source s t z) z
  boundary : ∀ l ∈ C.fluxes, ∀ e ∈ l.elements, ∀ Q < C.EF.npts,
    let y := onHeat C V m numP b U pos u q e Q
    SD (fun z : (Vec ℝ d.n × Vec ℝ d.n) × ℝ => l.f z.1.1 z.1.2 t z.2) (U.boundary l t ((y.1.1, unit y), y.2.1 0)) ((y.1.1, unit y), y.2.1 0)

variable {C V m numP b U} {pos : C.Positions} {t : ℝ} {u a : Ode.Vec C.nn} {q : Ode.Vec m}

theorem Thermal.smooth (h : Thermal C V m numP b U pos t u a q) : Smooth (C.form V m numP (C.slopes U)) b pos t u a q := by
  refine ⟨?_, ?_, ?_, ?_, ?_, ?_⟩
  · intro T hT e he Q hQ
    rcases List.mem_cons.1 hT with rfl | hT
    · exact h.mesh.material e he Q hQ
    · obtain ⟨f, hf, rfl⟩ := List.mem_map.1 hT
      exact h.mesh.sources f hf e he Q hQ
  · intro T hT e he Q hQ
    rcases List.mem_cons.1 hT with rfl | hT
    · exact h.moved e he Q hQ
    · obtain ⟨f, hf, rfl⟩ := List.mem_map.1 hT
      exact h.movedS f hf e he Q hQ
  · intro T hT ee hee Q hQ
    rcases List.mem_cons.1 hT with rfl | hT
    · exact material_slope C U _ _ (h.capacity ee hee Q hQ) (h.flux ee hee Q hQ).1 (h.flux ee hee Q hQ).2
    · obtain ⟨f, hf, rfl⟩ := List.mem_map.1 hT
      exact source_slope C U f t _ (h.source f hf ee.1 (C71.mem_zipIdx_fst hee) Q hQ)
  · intro T hT e he Q hQ
    obtain ⟨l, hl, rfl⟩ := List.mem_map.1 hT
    exact h.mesh.fluxes l hl e he Q hQ
  · intro T hT e he Q hQ
    obtain ⟨l, hl, rfl⟩ := List.mem_map.1 hT
    exact h.movedF l hl e he Q hQ
  · intro T hT ee hee Q hQ
    obtain ⟨l, hl, rfl⟩ := List.mem_map.1 hT
    exact flux_slope (norm_ne (h.movedF l hl ee.1 (C71.mem_zipIdx_fst hee) Q hQ)) (h.boundary l hl ee.1 (C71.mem_zipIdx_fst hee) Q hQ)

/-- **C88, heat transfer.** -/
theorem C88_heat (hS : Sound (C.form V m numP (C.slopes U)) b) (h : Thermal C V m numP b U pos t u a q) (o1 o2 o3 : Buffer ℝ) :
    ∃ L : (Ode.Vec C.nn × Ode.Vec C.nn × Ode.Vec m) →L[ℝ] Ode.Vec C.nn,
      HasStrictFDerivAt (fun z : Ode.Vec C.nn × Ode.Vec C.nn × Ode.Vec m => C.residual V pos (fun n i => z.2.2 (numP (n, i))) t z.1 z.2.1) L (u, a, q) ∧ ∀ w k, L w k =
        ∑ j, (C.form V m numP (C.slopes U)).fieldMatrix pos o1 t u a q k j * w.1 j + ∑ j, (C.form V m numP (C.slopes U)).rateMatrix pos o2 t u a q k j * w.2.1 j +
          ∑ j, (C.form V m numP (C.slopes U)).shapeMatrix pos o3 t u a q k j * w.2.2 j := by
  obtain ⟨L, h1, h2⟩ := C88_derivative hS h.smooth o1 o2 o3
  have e : (fun z : Dofs (C.form V m numP (C.slopes U)) => (C.form V m numP (C.slopes U)).residual pos t z.1 z.2.1 z.2.2) =
      fun z : Ode.Vec C.nn × Ode.Vec C.nn × Ode.Vec m => C.residual V pos (fun n i => z.2.2 (numP (n, i))) t z.1 z.2.1 :=
    funext fun z => heat_residual C V m numP (C.slopes U) pos t z.1 z.2.1 z.2.2
  exact ⟨L, e ▸ h1, h2⟩

/-- **C88, positions of nodes (heat transfer).** -/
theorem C88_heat_positions (hS : Sound (C.form V m numP (C.slopes U)) b) (h : Thermal C V m numP b U pos t u a q) {σ : Fin C.M.ng ≃ Fin V.np}
    (hn : C79.SameNodes C.M V b.toFunctions σ) (o : Buffer ℝ) :
    ∃ L : (Fin C.M.ng → Fin d.n → ℝ) →L[ℝ] Ode.Vec C.nn,
      HasStrictFDerivAt (fun x : Fin C.M.ng → Fin d.n → ℝ => (C.placed x).residual t u a) L (fun n => pos n + fun i => q (numP (σ n, i))) ∧
      ∀ w k, L w k = ∑ j, (C.form V m numP (C.slopes U)).shapeMatrix pos o t u a q k j * w (σ.symm (numP.symm j).1) (numP.symm j).2 := by
  obtain ⟨L, h1, h2⟩ := shape_strict hS h.smooth o
  obtain ⟨L', h3, h4⟩ := by_positions (S := fun x => (C.placed x).residual t u a) (pos := pos) h1 numP σ fun q' =>
    ((heat_residual C V m numP (C.slopes U) pos t u a q').trans
      (C79.C79_heat hS.mesh ⟨_, _, _, hS.test⟩ ⟨_, _, _, hS.testF⟩ h.mesh (C79.C79_nodes hn pos fun n i => q' (numP (n, i))) t u a)).symm
  exact ⟨L', h3, fun w k => (congrFun (h4 w) k).trans (h2 _ k)⟩

/-- The capacity matrix of heat transfer is symmetric, whatever the material and the shape. -/
theorem C88_capacity_symmetric (hS : Sound (C.form V m numP (C.slopes U)) b) (hU : ∀ k x, U.capacity k x 0 = 0) (hF : ∀ k x, U.flux k x 0 = 0) (hs : ∀ s t x, U.source s t x 0 = 0)
    (o : Buffer ℝ) : C30.Symmetric ((C.form V m numP (C.slopes U)).rateMatrix pos o t u a q) := by
  refine C88_rate_symmetric hS (fun T hT k y => ?_) o
  rcases List.mem_cons.1 hT with rfl | hT
  · refine ⟨(C.material k y.1).capacity, fun da => ?_⟩
    refine Prod.ext ?_ ?_
    · funext i
      fin_cases i
      change U.capacity k y.1 0 * _ + _ * da.1 0 = _ * da.1 0
      rw [hU, zero_mul, zero_add]
    · ext i j
      change -1 * U.flux k _ 0 j = 0
      rw [hF]
      simp
  · obtain ⟨s, _, rfl⟩ := List.mem_map.1 hT
    refine ⟨0, fun da => ?_⟩
    refine Prod.ext ?_ rfl
    funext i
    change -1 * U.source s t _ 0 = (0 : ℝ) * da.1 i
    rw [hs]
    simp

end HeatTransfer

/-! ## The displaced solid -/

section Displaced
variable {d : Dim} {B : Part d} {V : Space} {m : ℕ} {numP : Fin V.np × Fin d.n ≃ Fin m} {b : Bases} {A : Moduli d} {U : UserSlopes d}
  {pos : B.Positions} {t : ℝ} {u a : Ode.Vec B.N} {q : Ode.Vec m} {σ : Fin B.M.ng → Fin V.np}

/-- Spec: the shape functions in elements and on faces, as the theorems without shape displacement have them; the displaced nodes; domains and boundaries lie in the mesh. -/
def _root_.Serac.C88.Bases.inner (b : Bases) : C71.Shapes := ⟨b.phi, b.dphi, b.wt, b.X, b.dX⟩
def _root_.Serac.C88.Bases.outer (b : Bases) : C71.Shapes := ⟨b.phiF, b.dphiF, b.wtF, b.XF, b.dXF⟩
def moved (B : Part d) (numP : Fin V.np × Fin d.n ≃ Fin m) (σ : Fin B.M.ng → Fin V.np) (pos : B.Positions) (q : Ode.Vec m) : B.Positions :=
  fun n => pos n + fun i => q (numP (σ n, i))
structure Inside (B : Part d) : Prop where
  elements : ∀ e ∈ B.elements, e < B.M.ne
  forces : ∀ f ∈ B.forces, ∀ e ∈ f.elements, e < B.M.ne
  loads : ∀ l ∈ B.loads, ∀ e ∈ l.elements, e < B.M.nf

theorem moved_jac (hn : C79.SameNodes B.M V b.toFunctions σ) (e Q : ℕ) :
    C71.jac (B.placed (moved B numP σ pos q)).B.S b.inner e Q = (inSolid B V m numP b A U pos u a q e Q).1.2 :=
  (C79.C79_nodes hn pos fun n i => q (numP (n, i))).deriv e Q

theorem moved_tangents (hn : C79.SameNodes B.M V b.toFunctions σ) (e Q : ℕ) :
    C75.tangents (B.placed (moved B numP σ pos q)).F b.outer (moved B numP σ pos q) e Q = (onSolid B V m numP b A U pos u q e Q).1.2 :=
  (C79.C79_nodes hn pos fun n i => q (numP (n, i))).derivF e Q

theorem moved_sound (hS : Sound (B.form V m numP (B.slopes A U)) b) (hI : Inside B) (h : Elastic B V m numP b A U pos t u a q) (hn : C79.SameNodes B.M V b.toFunctions σ) :
    C84.Sound (B.placed (moved B numP σ pos q)) b.inner b.outer := by
  refine ⟨⟨hS.trial, hS.test, hS.mesh.G, hS.dim, hI.elements⟩, fun e he Q hQ => ?_, fun f hf e he => ?_, ⟨hS.trialF, hS.testF, hS.mesh.GF, hS.dimF⟩, fun l hl e he => ⟨hI.loads l hl e he, fun Q hQ => ?_⟩⟩
  · rw [moved_jac (A := A) (U := U) (u := u) (a := a) hn]
    exact h.moved e he Q hQ
  · obtain ⟨g, hg, rfl⟩ := List.mem_map.1 (show f ∈ B.forces.map _ from hf)
    exact hI.forces g hg e he
  · exact (moved_tangents (A := A) (U := U) (u := u) hn e Q).symm ▸ h.movedF l hl e he Q hQ

theorem moved_tangent (h : Elastic B V m numP b A U pos t u a q) (hn : C79.SameNodes B.M V b.toFunctions σ) : C77.Tangent (B.placed (moved B numP σ pos q)) b.inner A u := by
  intro ee hee Q hQ
  obtain ⟨h1, h2⟩ := h.flux ee hee Q hQ
  have e : C71.grad (B.placed (moved B numP σ pos q)).B.S b.inner ((B.placed (moved B numP σ pos q)).B.nodal u) ee.1 Q = (inSolid B V m numP b A U pos u a q ee.1 Q).2.1.2 := by
    unfold C71.grad
    rw [moved_jac (A := A) (U := U) (u := u) (a := a) hn]
    rfl
  dsimp only
  rw [e]
  exact ⟨h1, fun i l => (h2.entry i l).diff⟩

/-- Two matrices that give the derivative of the same function. -/
theorem same_matrix {n m : ℕ} {R : Ode.Vec n → Ode.Vec m → Ode.Vec n} {S : Ode.Vec n → Ode.Vec n} {K K' : Elim.Mat n} {P : Fin n → Fin m → ℝ} {u : Ode.Vec n} {q : Ode.Vec m}
    {L : (Ode.Vec n × Ode.Vec m) →L[ℝ] Ode.Vec n} (l1 : HasStrictFDerivAt (fun z : Ode.Vec n × Ode.Vec m => R z.1 z.2) L (u, q)) (l2 : ∀ v w, L (v, w) = Elim.mulVec K v + C59.mulP P w)
    (e : ∀ v, R v q = S v) {D : Ode.Vec n →L[ℝ] Ode.Vec n} (d1 : ∀ w, D w = Elim.mulVec K' w) (d2 : HasFDerivAt S D u) : K = K' := by
  have hE : HasStrictFDerivAt (fun v : Ode.Vec n => ((v, q) : Ode.Vec n × Ode.Vec m)) (ContinuousLinearMap.inl ℝ _ _) u := (hasStrictFDerivAt_id u).prodMk (hasStrictFDerivAt_const q u)
  have h3 : HasStrictFDerivAt (fun v : Ode.Vec n => R v q) (L.comp (ContinuousLinearMap.inl ℝ (Ode.Vec n) (Ode.Vec m))) u :=
    HasStrictFDerivAt.comp (g := fun z : Ode.Vec n × Ode.Vec m => R z.1 z.2) (f := fun v : Ode.Vec n => (v, q)) u l1 hE
  have h4 := h3.hasFDerivAt
  rw [funext e] at h4
  have h5 := h4.unique d2
  funext k j
  have h6 : L (Pi.single j 1, 0) = D (Pi.single j 1) := congrArg (fun M : Ode.Vec n →L[ℝ] Ode.Vec n => M (Pi.single j 1)) h5
  rw [d1] at h6
  have h7 := congrFun ((l2 _ _).symm.trans h6) k
  have h8 : C59.mulP P 0 = 0 := by
    funext i
    simp [C59.mulP]
  rw [h8, add_zero] at h7
  simpa [Elim.mulVec, Pi.single_apply] using h7

/-- **C88, tangents of solids.**  Newton's method on the problem with shape displacement has the matrices of the displaced solid: the matrix assembled through the wrapper is the one of C77. -/
theorem C88_stiffness (hS : Sound (B.form V m numP (B.slopes A U)) b) (hI : Inside B) (h : Elastic B V m numP b A U pos t u a q) (hn : C79.SameNodes B.M V b.toFunctions σ)
    (o o' : Buffer ℝ) : (B.form V m numP (B.slopes A U)).fieldMatrix pos o t u a q = (B.placed (moved B numP σ pos q)).stiffMatrix A o' t u := by
  have hM := moved_sound hS hI h hn
  obtain ⟨D, d1, d2⟩ := C77.C77_derivative hM.meaning hM.nondegenerate hM.domains hM.faces hM.loads t (moved_tangent h hn) a o'
  obtain ⟨L, l1, l2⟩ := static_strict hS h.smooth o o
  exact same_matrix (R := fun v q' => (B.form V m numP (B.slopes A U)).residual pos t v a q') l1 l2 (fun v => (solid_residual B V m numP (B.slopes A U) pos t v a q).trans
    (C79.C79_moved hS.mesh ⟨_, _, _, hS.test⟩ ⟨_, _, _, hS.testF⟩ h.mesh (C79.C79_nodes hn pos fun n i => q (numP (n, i))) t v a)) d1 d2

/-- The moduli of a linear material. -/
def linearModuli (C : ℕ → C71.M d.n →ₗ[ℝ] C71.M d.n) : Moduli d := fun p _ i l j n => C p (Matrix.single j n 1) i l

/-- **C88, linear elastic solids.**  With the code's own solver (warm start, Newton's method with exact linear solves) supported linear elastic solids give such analyses. -/
theorem C88_linear {C : ℕ → C71.M d.n →ₗ[ℝ] C71.M d.n} (hS : Sound (B.form V m numP (B.slopes (linearModuli C) U)) b) (hI : Inside B) (hn : C79.SameNodes B.M V b.toFunctions σ) {bc : Ode.BCs B.N}
    {g : ℝ → Ode.Vec B.N} (hG : ∀ᶠ q' in nhds q, C78.Good (B.placed (moved B numP σ pos q')) b.inner b.outer C ∧ C78.Supported (B.placed (moved B numP σ pos q')) b.inner C bc.allDofs)
    (hE : ∀ t u, Elastic B V m numP b (linearModuli C) U pos t u 0 q) (hg : Ode.Prescribes bc g) (hnd : bc.allDofs.Nodup) {conds : List (List (Fin B.N))} (hc : conds.flatten = bc.allDofs)
    {o : StaticSolver B.N} (hlin : C78.Exact o.linear) (hnorm : C78.Length o.norm) (hw : o.warm = true) (old old' : Buffer ℝ)
    {solve : ℝ → Ode.Vec m → Ode.Vec B.N → Ode.Vec B.N} (linear : Elim.Mat B.N → Ode.Vec B.N → Ode.Vec B.N)
    (hsolve : ∀ t q' v, ∃ (x : StaticState B.N) (dt : ℝ), x.time + dt = t ∧ x.u = v ∧
      solve t q' v = ((B.placed (moved B numP σ pos q')).staticStep (linearModuli C) old o bc 0 x dt).u)
    (t0 : ℝ) (dt : ℕ → ℝ) (u0 : Ode.Vec B.N) (N : ℕ) :
    Statics (B.form V m numP (B.slopes (linearModuli C) U)) b pos old 0 conds
      (C59.traj ((B.form V m numP (B.slopes (linearModuli C) U)).analysis pos old old' 0 conds solve linear) t0 dt u0) t0 dt N q := by
  set F := B.form V m numP (B.slopes (linearModuli C) U) with hF
  set z : Ode.Vec m → ℕ → Ode.Vec B.N := C59.traj (F.analysis pos old old' 0 conds solve linear) t0 dt u0 with hz
  have hres : ∀ t v q', F.residual pos t v 0 q' = (B.placed (moved B numP σ pos q')).residual t v 0 := fun t v q' =>
    (solid_residual B V m numP (B.slopes (linearModuli C) U) pos t v 0 q').trans
      (C79.C79_moved hS.mesh ⟨_, _, _, hS.test⟩ ⟨_, _, _, hS.testF⟩ (hE 0 0).mesh (C79.C79_nodes hn pos fun n i => q' (numP (n, i))) t v 0)
  have htr : ∀ k, 1 ≤ k → ∀ᶠ q' in nhds q, C78.Equilibrium (B.placed (moved B numP σ pos q')) bc.allDofs (g (C59.time t0 dt k)) (C59.time t0 dt k) (z q' k) := by
    intro k h1
    obtain ⟨j, rfl⟩ : ∃ j, k = j + 1 := ⟨k - 1, by omega⟩
    filter_upwards [hG] with q' hq1
    obtain ⟨x, δ, hx, -, he⟩ := hsolve (C59.time t0 dt (j + 1)) q' (z q' j)
    have := (C78.C78_step (old := old) hq1.1 hq1.2 (fun v => C78.C78_tangent hq1.1.elastic v) hlin hnorm hw hg hnd x δ).1
    rw [hx] at this
    exact (congrArg (C78.Equilibrium (B.placed (moved B numP σ pos q')) bc.allDofs (g (C59.time t0 dt (j + 1))) (C59.time t0 dt (j + 1))) he).mpr this
  have hreg : ∀ k, ∀ w, Elim.mulVec (Elim.elim (F.fieldMatrix pos old (C59.time t0 dt k) (z q k) 0 q) conds.flatten) w = 0 → w = 0 := by
    intro k w hw'
    have e := C88_stiffness hS hI (hE (C59.time t0 dt k) (z q k)) hn old old
    have hw2 : Elim.mulVec (Elim.elim ((B.placed (moved B numP σ pos q)).stiffMatrix (linearModuli C) old (C59.time t0 dt k) (z q k)) bc.allDofs) w = 0 := by
      rw [← hc, ← e]
      exact hw'
    exact C78.elim_injective hG.self_of_nhds.1 hG.self_of_nhds.2 (C78.C78_tangent hG.self_of_nhds.1.elastic (z q k)) old (C59.time t0 dt k) hw2
  have hsol : ∀ k, 1 ≤ k → ∀ᶠ q' in nhds q, (∀ i ∈ conds.flatten, z q' k i = z q k i) ∧ ∀ i ∉ conds.flatten, F.residual pos (C59.time t0 dt k) (z q' k) 0 q' i = 0 := by
    intro k h1
    have h0 := (htr k h1).self_of_nhds.1
    filter_upwards [htr k h1] with q' hq'
    rw [hc]
    exact ⟨fun i hi => (hq'.1 i hi).trans (h0 i hi).symm, fun i hi => (congrFun (hres _ _ _) i).trans (hq'.2 i hi)⟩
  refine ⟨fun k _ _ => (hE _ _).smooth, fun k _ _ => hreg k, fun k h1 _ => ?_, fun k h1 _ => hsol k h1⟩
  obtain ⟨L, l1, l2⟩ := static_strict hS (hE (C59.time t0 dt k) (z q k)).smooth old old'
  obtain ⟨D, d1, d2⟩ := gap_regular (R := fun v q' => F.residual pos (C59.time t0 dt k) v 0 q') l1 l2 (hreg k) (z q k)
  obtain ⟨W, w1, w2, w3⟩ := C87.solution_branch d1 d2 (gap_zero.2 (hsol k h1).self_of_nhds)
  refine w2.congr ?_
  have h0 := (htr k h1).self_of_nhds.1
  filter_upwards [hG, htr k h1, w3] with q' hq1 hq2 hq3
  have hq4 := gap_zero.1 hq3
  obtain ⟨y, -, hy⟩ := C78.C78_unique hq1.1 hq1.2 (g (C59.time t0 dt k)) (C59.time t0 dt k)
  rw [hc] at hq4
  exact (hy _ ⟨fun i hi => (hq4.1 i hi).trans (h0 i hi), fun i hi => (congrFun (hres _ _ _) i).symm.trans (hq4.2 i hi)⟩).trans (hy _ hq2).symm

end Displaced

section Isotropic
variable {d : Dim} {B : Part d} {V : Space} {m : ℕ} {numP : Fin V.np × Fin d.n ≃ Fin m} {b : Bases} {U : UserSlopes d} {pos : B.Positions} {q : Ode.Vec m} {σ : Fin B.M.ng → Fin V.np}

theorem area_cross (J : Mat ℝ d.n (faceDim d)) : C75.area d J = crossAt d J := by
  cases d with
  | two => rfl
  | three => exact C79.area_three J

theorem moved_continuous (n : Fin B.M.ng) (i : Fin d.n) : Continuous fun q' : Ode.Vec m => moved B numP σ pos q' n i :=
  continuous_const.add (continuous_apply (A := fun _ : Fin m => ℝ) (numP (σ n, i)))

theorem jac_continuous (e Q : ℕ) : Continuous fun q' : Ode.Vec m => C71.jac (B.placed (moved B numP σ pos q')).B.S b.inner e Q :=
  continuous_matrix fun i k => by
    change Continuous fun q' : Ode.Vec m => ∑ a ∈ range B.M.G.ndof, moved B numP σ pos q' (B.M.conn e a) i * b.dX Q a k
    exact continuous_finsetSum _ fun a _ => (moved_continuous (B.M.conn e a) i).mul continuous_const

theorem area_near {e Q : ℕ} (h : C75.area d (C75.tangents (B.placed (moved B numP σ pos q)).F b.outer (moved B numP σ pos q) e Q) ≠ 0) :
    ∀ᶠ q' in nhds q, C75.area d (C75.tangents (B.placed (moved B numP σ pos q')).F b.outer (moved B numP σ pos q') e Q) ≠ 0 := by
  simp only [area_cross] at h ⊢
  have h1 : Continuous fun q' : Ode.Vec m => (C75.tangents (B.placed (moved B numP σ pos q')).F b.outer (moved B numP σ pos q') e Q : Mat ℝ d.n (faceDim d)) :=
    continuous_matrix fun i k => by
      change Continuous fun q' : Ode.Vec m => ∑ a ∈ range B.M.GF.ndof, moved B numP σ pos q' (B.M.connF e a) i * b.dXF Q a k
      exact continuous_finsetSum _ fun a _ => (moved_continuous (B.M.connF e a) i).mul continuous_const
  have h2 : ∀ J : Mat ℝ d.n (faceDim d), ContinuousAt (fun J : Mat ℝ d.n (faceDim d) => crossAt d J) J := fun J =>
    (sd_cross (f := fun J => J) (f' := fun J => J) (SD.linear (ContinuousLinearMap.id ℝ (Mat ℝ d.n (faceDim d))) J)).continuousAt
  exact (ContinuousAt.comp (h2 _) h1.continuousAt).eventually_ne h

/-- **C88, the linear isotropic material.**  It is enough that the displaced mesh is regular and that its nodes are held: analyses with the code's solver meet the
hypotheses of `C88_gradient`, so their adjoint passes return gradients with respect to the shape displacement. -/
theorem C88_isotropic {K G : ℝ} (hon : B.on = false) (hmat : ∀ p, B.material p = fun H => some (Mat.linearIsotropic K G H)) (hK : 0 < K) (hG : 0 < G)
    (hS : Sound (B.form V m numP (B.slopes (linearModuli fun _ => C73.isotropic d.n K G) U)) b) (hI : Inside B) (hn : C79.SameNodes B.M V b.toFunctions σ) {bc : Ode.BCs B.N}
    {g : ℝ → Ode.Vec B.N} (hp : C78.Proper (B.placed (moved B numP σ pos q)).B b.inner) (hh : ∀ n, C78.Held (B.placed pos).B bc.allDofs n)
    (hE : ∀ t u, Elastic B V m numP b (linearModuli fun _ => C73.isotropic d.n K G) U pos t u 0 q) (hg : Ode.Prescribes bc g) (hnd : bc.allDofs.Nodup) {conds : List (List (Fin B.N))}
    (hc : conds.flatten = bc.allDofs) {o : StaticSolver B.N} (hlin : C78.Exact o.linear) (hnorm : C78.Length o.norm) (hw : o.warm = true) (old old' : Buffer ℝ)
    {solve : ℝ → Ode.Vec m → Ode.Vec B.N → Ode.Vec B.N} (linear : Elim.Mat B.N → Ode.Vec B.N → Ode.Vec B.N)
    (hsolve : ∀ t q' v, ∃ (x : StaticState B.N) (dt : ℝ), x.time + dt = t ∧ x.u = v ∧
      solve t q' v = ((B.placed (moved B numP σ pos q')).staticStep (linearModuli fun _ => C73.isotropic d.n K G) old o bc 0 x dt).u)
    (t0 : ℝ) (dt : ℕ → ℝ) (u0 : Ode.Vec B.N) (N : ℕ) :
    Statics (B.form V m numP (B.slopes (linearModuli fun _ => C73.isotropic d.n K G) U)) b pos old 0 conds
      (C59.traj ((B.form V m numP (B.slopes (linearModuli fun _ => C73.isotropic d.n K G) U)).analysis pos old old' 0 conds solve linear) t0 dt u0) t0 dt N q := by
  refine C88_linear hS hI hn ?_ hE hg hnd hc hlin hnorm hw old old' linear hsolve t0 dt u0 N
  have hM := moved_sound hS hI (hE 0 0) hn
  have h1 : ∀ᶠ q' in nhds q, ∀ e ∈ B.elements, ∀ Q ∈ List.range B.E.npts, 0 < b.wt Q * (C71.jac (B.placed (moved B numP σ pos q')).B.S b.inner e Q).det := by
    refine C77.eventually_list _ _ _ fun e he => C77.eventually_list _ _ _ fun Q hQ => ?_
    exact (continuous_const.mul (jac_continuous e Q).matrix_det).continuousAt.eventually (lt_mem_nhds (hp.volume e he Q (List.mem_range.1 hQ)))
  have h2 : ∀ᶠ q' in nhds q, ∀ l ∈ B.loads, ∀ e ∈ l.elements, ∀ Q ∈ List.range B.EF.npts,
      C75.area d (C75.tangents (B.placed (moved B numP σ pos q')).F b.outer (moved B numP σ pos q') e Q) ≠ 0 :=
    C77.eventually_list _ _ _ fun l hl => C77.eventually_list _ _ _ fun e he => C77.eventually_list _ _ _ fun Q hQ => area_near ((hM.loads l hl e he).2 Q (List.mem_range.1 hQ))
  filter_upwards [h1, h2] with q' q1 q2
  have hv : ∀ e ∈ B.elements, ∀ Q < B.E.npts, 0 < b.wt Q * (C71.jac (B.placed (moved B numP σ pos q')).B.S b.inner e Q).det := fun e he Q hQ => q1 e he Q (List.mem_range.2 hQ)
  refine ⟨⟨⟨hS.trial, hS.test, hS.mesh.G, hS.dim, hI.elements⟩, fun e he Q hQ => right_ne_zero_of_mul (hv e he Q hQ).ne', fun f hf e he => ?_, hM.faces,
    fun l hl e he => ⟨hI.loads l hl e he, fun Q hQ => q2 l hl e he Q (List.mem_range.2 hQ)⟩, fun l _ ho => ?_,
    (C73.C73_isotropic (B := (B.placed (moved B numP σ pos q')).B) K G hon hmat).1⟩, ?_⟩
  · obtain ⟨f', hf', rfl⟩ := List.mem_map.1 (show f ∈ B.forces.map _ from hf)
    exact hI.forces f' hf' e he
  · rw [show (B.placed (moved B numP σ pos q')).B.S.on = false from hon] at ho
    exact Bool.noConfusion ho
  · refine C78.C78_supported (L := B.placed (moved B numP σ pos q')) hK hG ⟨hp.nodes, hp.slope, hv⟩ fun n => ?_
    have key : ∀ n : Fin (B.placed pos).B.S.nn, C78.Held (B.placed pos).B bc.allDofs n → C78.Held (B.placed (moved B numP σ pos q')).B bc.allDofs n := by
      intro n hn
      induction hn with
      | fixed n h => exact .fixed (B := (B.placed (moved B numP σ pos q')).B) n h
      | element e a he ha h ih => exact .element (B := (B.placed (moved B numP σ pos q')).B) e a he ha ih
    exact key n (hh n)

end Isotropic

/-! ## Examples -/

/-- A linear material has the moduli above. -/
theorem linear_flux {d : Dim} {on : GeomNonlin} {σ : Mat ℝ d.n d.n → Option (Mat ℝ d.n d.n)} {C : ℕ → C71.M d.n →ₗ[ℝ] C71.M d.n} (p : ℕ) (h : ∀ H, materialFlux (ops d) on σ H = some (C p H))
    (H : Mat ℝ d.n d.n) : (∀ᶠ G in nhds H, (materialFlux (ops d) on σ G).isSome) ∧
      SD (fun G => (materialFlux (ops d) on σ G).getD 0) (fun G i l => ∑ j, ∑ n, linearModuli C p H i l j n * G j n) H := by
  refine ⟨Filter.Eventually.of_forall fun G => by rw [h]; rfl, ?_⟩
  refine (SD.lin (f := fun G : Mat ℝ d.n d.n => (C p G : Mat ℝ d.n d.n)) (fun y z => (C p).map_add y z) (fun a y => (C p).map_smul a y) H).congr (fun G => by rw [h]; rfl) fun G => ?_
  funext i l
  conv_rhs => rw [Matrix.matrix_eq_sum_single G]
  rw [map_sum, Matrix.sum_apply]
  refine sum_congr rfl fun j _ => ?_
  rw [map_sum, Matrix.sum_apply]
  refine sum_congr rfl fun n _ => ?_
  rw [show Matrix.single j n (G j n) = G j n • Matrix.single j n (1 : ℝ) by rw [Matrix.smul_single, smul_eq_mul, mul_one], map_smul, Matrix.smul_apply, smul_eq_mul, mul_comm]
  rfl

section Example

/-- The square of C79 with a linear isotropic material. -/
def exSteel : Part .two := { C79.exPart with on := false, material := fun _ H => some (Mat.linearIsotropic 2 1 H) }

def exSlopes : UserSlopes .two where
  body _ _ _ w := (![0, -(show Fin 2 → ℝ from w) 1] : Fin 2 → ℝ)
  traction _ _ _ w := (![0, (show Fin 2 → ℝ from w.1) 1] : Fin 2 → ℝ)
  pressure _ _ _ w := (show Fin 2 → ℝ from w) 0

def exBases : Bases where
  toFunctions := C79.exS
  phi := C72.exShapes.phi
  dphi := C72.exShapes.dphi
  wt := C72.exShapes.wt
  phiF := C75.exSF.phi
  dphiF := C75.exSF.dphi
  wtF := C75.exSF.wt

def exNum : Fin C79.exV.np × Fin Dim.two.n ≃ Fin 10 := (finProdFinEquiv : Fin 5 × Fin 2 ≃ Fin (5 * 2))
def exA : Moduli .two := linearModuli fun _ => C73.isotropic 2 2 1

theorem ex_sound : Sound (exSteel.form C79.exV 10 exNum (exSteel.slopes exA exSlopes)) exBases :=
  ⟨(C51.C51_simplex C72.tri3).2, (C51.C51_simplex C72.tri3).1, (C51.C51_segment C75.exRule).2, (C51.C51_segment C75.exRule).1, C79.ex_meaning, rfl, rfl, rfl, rfl, by norm_num [Dim.n]⟩

theorem ex_inside : Inside exSteel := by
  refine ⟨fun e he => ?_, fun f hf e he => ?_, fun l hl e he => ?_⟩
  · have : e = 0 ∨ e = 1 ∨ e = 2 ∨ e = 3 := by simpa using (show e ∈ [0, 1, 2, 3] from he)
    change e < 4
    omega
  · rw [List.mem_singleton.1 (show f ∈ [_] from hf)] at he
    have : e = 0 ∨ e = 1 ∨ e = 2 ∨ e = 3 := by simpa using (show e ∈ [0, 1, 2, 3] from he)
    change e < 4
    omega
  · change e < 4
    rcases (show l = C75.exTraction ∨ l = C75.exPressure by simpa [C79.exPart] using (show l ∈ C79.exPart.loads from hl)) with rfl | rfl
    · have : e = 1 := by simpa using (show e ∈ [1] from he)
      omega
    · have : e = 0 ∨ e = 1 ∨ e = 2 ∨ e = 3 := by simpa using (show e ∈ [0, 1, 2, 3] from he)
      omega

/-- The space of the shape displacement numbers the nodes backwards. -/
def exFlip : Fin exSteel.M.ng ≃ Fin C79.exV.np := Fin.revPerm (n := 5)
theorem ex_nodes : C79.SameNodes exSteel.M C79.exV exBases.toFunctions exFlip := C79.ex_nodes

/-- The square displaced by `q`. -/
abbrev exMoved (q : Ode.Vec 10) : exSteel.Positions := moved exSteel exNum exFlip C71.exPos q

theorem ex_elastic {q : Ode.Vec 10} (h1 : ∀ e ∈ [0, 1, 2, 3], ∀ Q < 3, (C71.jac (exSteel.placed (exMoved q)).B.S exBases.inner e Q).det ≠ 0)
    (h2 : ∀ e < 4, ∀ Q < 1, C75.area .two (C75.tangents (exSteel.placed (exMoved q)).F exBases.outer (exMoved q) e Q) ≠ 0) (t : ℝ) (u : Ode.Vec 10) :
    Elastic exSteel C79.exV 10 exNum exBases exA exSlopes C71.exPos t u 0 q := by
  have hin : ∀ e ∈ [0, 1, 2, 3], ∀ Q < 3, (inSolid exSteel C79.exV 10 exNum exBases exA exSlopes C71.exPos u 0 q e Q).1.2.det ≠ 0 := fun e he Q hQ h0 =>
    h1 e he Q hQ ((congrArg Matrix.det (moved_jac (A := exA) (U := exSlopes) (u := u) (a := 0) ex_nodes e Q)).trans h0)
  have hon : ∀ e < 4, ∀ Q < 1, C75.area .two (onSolid exSteel C79.exV 10 exNum exBases exA exSlopes C71.exPos u q e Q).1.2 ≠ 0 := fun e he Q hQ h0 =>
    h2 e he Q hQ ((congrArg (C75.area .two) (moved_tangents (A := exA) (U := exSlopes) (u := u) ex_nodes e Q)).trans h0)
  refine ⟨⟨C79.ex_all.material, C79.ex_all.forces, C79.ex_all.loads⟩, hin, fun f hf => ?_, fun l hl e he => hon e (ex_inside.loads l hl e he), fun ee _ Q _ => ?_, fun f hf e _ Q _ => ?_,
    fun l f hl e _ Q _ => ?_, fun l f hl e _ Q _ => ?_⟩
  · rw [List.mem_singleton.1 (show f ∈ [_] from hf)]
    exact hin
  · exact linear_flux (d := .two) (on := false) (σ := fun H => some (Mat.linearIsotropic 2 1 H)) (C := fun _ => C73.isotropic 2 2 1) _ (fun H => C33.C33_flux_off (C71.ops_exact .two) _ _) _
  · rw [List.mem_singleton.1 (show f ∈ [_] from hf)]
    refine SD.pi fun i => ?_
    revert i
    change ∀ i : Fin 2, _
    intro i
    fin_cases i
    · exact SD.const 0 _
    · exact (((SD.linear (ContinuousLinearMap.proj (R := ℝ) (φ := fun _ : Fin 2 => ℝ) 1) _).neg).const_add t).congr (fun y => sub_eq_add_neg _ _) fun _ => rfl
  · have hf : f = fun x _ t => (![3, (show Fin 2 → ℝ from x) 1 + t] : Fin 2 → ℝ) := by
      rcases (show Load.traction l f = C75.exTraction ∨ Load.traction l f = C75.exPressure by simpa [C79.exPart] using (show Load.traction l f ∈ C79.exPart.loads from hl)) with h | h
      · exact (Load.traction.inj h).2
      · exact absurd h (by unfold C75.exPressure; exact fun h => by injection h)
    subst hf
    refine SD.pi fun i => ?_
    revert i
    change ∀ i : Fin 2, _
    intro i
    fin_cases i
    · exact SD.const 3 _
    · exact (((SD.linear ((ContinuousLinearMap.proj (R := ℝ) (φ := fun _ : Fin 2 => ℝ) 1).comp (ContinuousLinearMap.fst ℝ (Fin 2 → ℝ) (Fin 2 → ℝ))) _)).const_add t).congr
        (fun y => add_comm _ _) fun _ => rfl
  · have hf : f = fun x _ => 5 + (show Fin 2 → ℝ from x) 0 := by
      rcases (show Load.pressure l f = C75.exTraction ∨ Load.pressure l f = C75.exPressure by simpa [C79.exPart] using (show Load.pressure l f ∈ C79.exPart.loads from hl)) with h | h
      · exact absurd h (by unfold C75.exTraction; exact fun h => by injection h)
      · exact (Load.pressure.inj h).2
    subst hf
    exact (SD.linear (ContinuousLinearMap.proj (R := ℝ) (φ := fun _ : Fin 2 => ℝ) 0) _).const_add 5

theorem ex_held (n : Fin 5) : C78.Held (exSteel.placed C71.exPos).B C73.exClamp.allDofs n := by
  have key : ∀ n : Fin (C73.exBody []).S.nn, C78.Held (C73.exBody []) C73.exClamp.allDofs n → C78.Held (exSteel.placed C71.exPos).B C73.exClamp.allDofs n := by
    intro n hn
    induction hn with
    | fixed n h => exact .fixed (B := (exSteel.placed C71.exPos).B) n h
    | element e a he ha h ih => exact .element (B := (exSteel.placed C71.exPos).B) e a he ha ih
  exact key n (C78.ex_held [] n)

/-- The code's solver on the displaced square. -/
def exSolve (old : Buffer ℝ) (o : Newton.Options) : ℝ → Ode.Vec 10 → Ode.Vec 10 → Ode.Vec 10 := fun t q u =>
  ((exSteel.placed (exMoved q)).staticStep exA old (C78.exSolver true o) C73.exClamp 0 ⟨0, u, 0, ⟨.fin 0, false, 0, .fin 0⟩⟩ t).u

abbrev exForm := exSteel.form C79.exV 10 exNum (exSteel.slopes exA exSlopes)

theorem ex_statics (old old' : Buffer ℝ) (o : Newton.Options) {q : Ode.Vec 10}
    (h1 : ∀ e ∈ [0, 1, 2, 3], ∀ Q < 3, 0 < (C71.jac (exSteel.placed (exMoved q)).B.S exBases.inner e Q).det)
    (h2 : ∀ e < 4, ∀ Q < 1, C75.area .two (C75.tangents (exSteel.placed (exMoved q)).F exBases.outer (exMoved q) e Q) ≠ 0) (dt : ℕ → ℝ) (u0 : Ode.Vec 10) (N : ℕ) :
    Statics exForm exBases C71.exPos old 0 [C73.exClamp.allDofs] (C59.traj (exForm.analysis C71.exPos old old' 0 [C73.exClamp.allDofs] (exSolve old o) (C78.exSolver true o).linear) 0 dt u0)
      0 dt N q := by
  have hp := C78.ex_proper []
  refine C88_isotropic (B := exSteel) (σ := exFlip) (K := 2) (G := 1) (bc := C73.exClamp) (g := fun _ _ => 0) rfl (fun _ => rfl) (by norm_num) (by norm_num) ex_sound ex_inside ex_nodes
    ⟨hp.nodes, hp.slope, fun e he Q hQ => mul_pos ?_ (h1 e he Q hQ)⟩ ex_held (ex_elastic (fun e he Q hQ => (h1 e he Q hQ).ne') h2) C73.ex_clamp (by decide) rfl (C78.ex_exact true o)
    (C78.ex_length true o) rfl old old' (C78.exSolver true o).linear (fun t q' v => ⟨_, t, zero_add t, rfl, rfl⟩) 0 dt u0 N
  simp [Bases.inner, exBases, C72.exShapes, C72.tri3]

/-- Without displacement the mesh is the one of C72. -/
theorem ex_zero : exMoved 0 = C71.exPos := by
  funext n
  exact add_zero _

theorem ex_mesh : (∀ e ∈ [0, 1, 2, 3], ∀ Q < 3, 0 < (C71.jac (exSteel.placed (exMoved 0)).B.S exBases.inner e Q).det) ∧
    ∀ e < 4, ∀ Q < 1, C75.area .two (C75.tangents (exSteel.placed (exMoved 0)).F exBases.outer (exMoved 0) e Q) ≠ 0 := by
  rw [ex_zero]
  exact ⟨fun e he Q hQ => C72.ex_det [] (show e = 0 ∨ e = 1 ∨ e = 2 ∨ e = 3 by simpa using he) hQ,
    fun e he Q hQ => (C75.ex_faces_good [e] (by simpa using he) e (by simp)).2 Q hQ⟩

/-- The gradient, with respect to the shape, of a displacement after `N` steps. -/
example (old old' : Buffer ℝ) (o : Newton.Options) (dt : ℕ → ℝ) (N : ℕ) (u0 : Ode.Vec 10) :
    let pr := exForm.analysis C71.exPos old old' 0 [C73.exClamp.allDofs] (exSolve old o) (C78.exSolver true o).linear
    ∃ r, StaticAdj.pass pr 0 (C59.loads (fun k => if k = N then Pi.single (9 : Fin 10) 1 else 0) (N + 1)) (StaticAdj.forward pr 0 (C59.steps dt (N + 1)) (StaticAdj.start 0 u0)) = some r ∧
      ∃ G : Ode.Vec 10 →L[ℝ] ℝ, HasFDerivAt (fun q' => C59.traj pr 0 dt u0 q' (N + 1) (9 : Fin 10)) G 0 ∧ ∀ w, G w = r.1.sum ⬝ᵥ w := by
  intro pr
  exact C88_gradient ex_sound (ex_statics old old' o ex_mesh.1 ex_mesh.2 dt u0 (N + 1)) (C78.ex_exact true o) (fun z => z (Fin.last N) (9 : Fin 10)) _ (C87.ex_last N (9 : Fin 10) _)

/-- The same derivative with respect to the positions of the nodes. -/
example (o : Buffer ℝ) (t : ℝ) (u : Ode.Vec 10) : ∃ L : (Fin 5 → Fin 2 → ℝ) →L[ℝ] Ode.Vec 10,
    HasStrictFDerivAt (fun x : Fin 5 → Fin 2 → ℝ => (exSteel.placed x).residual t u 0) L (fun n => C71.exPos n + fun i => (0 : Ode.Vec 10) (exNum (exFlip n, i))) ∧
    ∀ w k, L w k = ∑ j, exForm.shapeMatrix C71.exPos o t u 0 0 k j * w (exFlip.symm (exNum.symm j).1) (exNum.symm j).2 :=
  C88_positions (σ := exFlip) ex_sound (ex_elastic (fun e he Q hQ => (ex_mesh.1 e he Q hQ).ne') ex_mesh.2 t u) ex_nodes o

end Example

section HeatedShapes
variable {d : Dim} {C : Conductor d} {V : Space} {m : ℕ} {numP : Fin V.np × Fin d.n ≃ Fin m} {b : Bases} {U : HeatUser d} {pos : C.Positions} {σ : Fin C.M.ng → Fin V.np}

/-- The displaced nodes. -/
def warped (C : Conductor d) (numP : Fin V.np × Fin d.n ≃ Fin m) (σ : Fin C.M.ng → Fin V.np) (pos : C.Positions) (q : Ode.Vec m) : C.Positions :=
  fun n => pos n + fun i => q (numP (σ n, i))

theorem warped_residual (hS : Sound (C.form V m numP (C.slopes U)) b) (hr : C79.AllRegularHeat C b.toFunctions pos) (hn : C79.SameNodes C.M V b.toFunctions σ) (t : ℝ) (u a : Ode.Vec C.nn)
    (q : Ode.Vec m) : (C.form V m numP (C.slopes U)).residual pos t u a q = (C.placed (warped C numP σ pos q)).residual t u a :=
  (heat_residual C V m numP (C.slopes U) pos t u a q).trans (C79.C79_heat hS.mesh ⟨_, _, _, hS.test⟩ ⟨_, _, _, hS.testF⟩ hr (C79.C79_nodes hn pos fun n i => q (numP (n, i))) t u a)

/-- The matrix of a step, from the derivatives for field and rate and from the affine residual of a step. -/
theorem step_matrix {n m : ℕ} {G : Ode.Vec n × Ode.Vec n × Ode.Vec m → Ode.Vec n} {L : (Ode.Vec n × Ode.Vec n × Ode.Vec m) →L[ℝ] Ode.Vec n} {K M : Elim.Mat n} {P : Fin n → Fin m → ℝ}
    {T r : Ode.Vec n} {q : Ode.Vec m} {τ : ℝ} (l1 : HasStrictFDerivAt G L (T + τ • r, r, q)) (l2 : ∀ v r w, L (v, r, w) = Elim.mulVec K v + Elim.mulVec M r + C59.mulP P w)
    {J : Ode.Vec n → Elim.Mat n} (hJ : ∀ u w, G (T + τ • (u + w), u + w, q) = G (T + τ • u, u, q) + Elim.mulVec (J u) w) : Adj.addMat M τ K = J r := by
  let I : Ode.Vec n →L[ℝ] Ode.Vec n × Ode.Vec n × Ode.Vec m := (τ • ContinuousLinearMap.id ℝ (Ode.Vec n)).prod ((ContinuousLinearMap.id ℝ (Ode.Vec n)).prod 0)
  have hE : HasStrictFDerivAt (fun s : Ode.Vec n => ((T + τ • s, s, q) : Ode.Vec n × Ode.Vec n × Ode.Vec m)) I r :=
    (((hasStrictFDerivAt_id r).const_smul τ).const_add T).prodMk ((hasStrictFDerivAt_id r).prodMk (hasStrictFDerivAt_const q r))
  have h3 : HasStrictFDerivAt (fun s : Ode.Vec n => G (T + τ • s, s, q)) (L.comp I) r :=
    HasStrictFDerivAt.comp (g := G) (f := fun s : Ode.Vec n => (T + τ • s, s, q)) r l1 hE
  let A : Ode.Vec n →L[ℝ] Ode.Vec n := LinearMap.toContinuousLinearMap
    { toFun := Elim.mulVec (J r), map_add' := C29.mulVec_add (J r), map_smul' := C29.mulVec_smul (J r) }
  have h4 : HasFDerivAt (fun s : Ode.Vec n => G (T + τ • s, s, q)) A r := by
    have e : (fun s : Ode.Vec n => G (T + τ • s, s, q)) = fun s => G (T + τ • r, r, q) + A (s - r) := by
      funext s
      have := hJ r (s - r)
      rw [add_sub_cancel] at this
      exact this
    rw [e]
    have h5 : HasFDerivAt (fun s : Ode.Vec n => A (s - r)) (A.comp (ContinuousLinearMap.id ℝ (Ode.Vec n))) r := A.hasFDerivAt.comp r ((hasFDerivAt_id r).sub_const r)
    exact h5.const_add _
  have h5 := h3.hasFDerivAt.unique h4
  funext k j
  have h6 : L (τ • Pi.single j 1, Pi.single j 1, 0) = Elim.mulVec (J r) (Pi.single j 1) := congrArg (fun M : Ode.Vec n →L[ℝ] Ode.Vec n => M (Pi.single j 1)) h5
  have h7 := congrFun ((l2 _ _ _).symm.trans h6) k
  have h8 : C59.mulP P 0 = 0 := by
    funext i
    simp [C59.mulP]
  rw [h8, add_zero, C29.mulVec_smul] at h7
  have h9 : ∀ X : Elim.Mat n, Elim.mulVec X (Pi.single j 1) k = X k j := fun X => by simp [Elim.mulVec, Pi.single_apply]
  simp only [Pi.add_apply, Pi.smul_apply, h9, smul_eq_mul] at h7
  rw [← h7]
  unfold Adj.addMat
  ring

/-- Analyses whose steps are affine. -/
theorem run_affine {n m : ℕ} {p : TransientAdj.Problem n m} {G : ℝ → Ode.Vec n × Ode.Vec n × Ode.Vec m → Ode.Vec n} {t0 : ℝ} {dt : ℕ → ℝ} {N : ℕ} {y : Ode.Vec n × Ode.Vec m}
    (hdt : ∀ k < N, 0 < dt k)
    (hder : ∀ k < N, ∃ L : (Ode.Vec n × Ode.Vec n × Ode.Vec m) →L[ℝ] Ode.Vec n,
      HasStrictFDerivAt (G (C59.time t0 dt (k + 1))) L ((C87.traj p t0 dt y (k + 1)).1, (C87.traj p t0 dt y (k + 1)).2, y.2) ∧
      ∀ v r w, L (v, r, w) = Elim.mulVec (p.K (C59.time t0 dt (k + 1)) (C87.traj p t0 dt y (k + 1)).1 (C87.traj p t0 dt y (k + 1)).2 y.2) v +
        Elim.mulVec (p.M (C59.time t0 dt (k + 1)) (C87.traj p t0 dt y (k + 1)).1 (C87.traj p t0 dt y (k + 1)).2 y.2) r +
        C59.mulP (p.P (C59.time t0 dt (k + 1)) (C87.traj p t0 dt y (k + 1)).1 (C87.traj p t0 dt y (k + 1)).2 y.2) w)
    (hsym : ∀ k < N, C30.Symmetric (p.M (C59.time t0 dt (k + 1)) (C87.traj p t0 dt y (k + 1)).1 (C87.traj p t0 dt y (k + 1)).2 y.2))
    {J : ℝ → ℝ → Ode.Vec m → Ode.Vec n → Ode.Vec n → Elim.Mat n}
    (haff : ∀ᶠ q in nhds y.2, ∀ t τ T, 0 < τ → C81.Affine p.conds.flatten (fun r => G t (T + τ • r, r, q)) (J t τ q T)) (bc : ℕ → Ode.Vec n)
    (hsol : ∀ k < N, ∀ᶠ q in nhds y.2, ∀ T, C87.Solves p.conds.flatten (G (C59.time t0 dt (k + 1))) (bc k) (dt k) q T (p.solve (C59.time t0 dt (k + 1)) (dt k) q T)) :
    C87.Run p G t0 dt N y := by
  refine C87.Run.of_unique (fun k hk => (hdt k hk).ne') hder hsym (fun k hk w hw => ?_) bc hsol fun k hk => ?_
  · have ha := haff.self_of_nhds (C59.time t0 dt (k + 1)) (dt k) (C87.traj p t0 dt y k).1 (hdt k hk)
    obtain ⟨L, l1, l2⟩ := hder k hk
    rw [C87.traj_temp] at l1
    rw [step_matrix (J := J (C59.time t0 dt (k + 1)) (dt k) y.2 (C87.traj p t0 dt y k).1) l1 l2 ha.affine] at hw
    exact ha.injective _ hw
  · filter_upwards [haff] with q hq T r r' h1 h2
    refine (hq (C59.time t0 dt (k + 1)) (dt k) T (hdt k hk)).unique h1.2 h2.2 fun i hi => ?_
    have := (h1.1 i hi).trans (h2.1 i hi).symm
    simp only [Pi.add_apply, Pi.smul_apply, smul_eq_mul, add_right_inj] at this
    exact mul_left_cancel₀ (hdt k hk).ne' this

/-- The step of a linear problem is affine. -/
theorem step_affine {d : Dim} {X : Heat.Exchange d} {s sF : C71.Shapes} {A : ℕ → C71.M d.n} {g e : Heat.Flux d → Vec ℝ d.n → Vec ℝ d.n → ℝ → ℝ} {D : Heat.Slopes d}
    (h1 : C81.LinearProblem X s sF A g e) (h2 : C81.Dissipative (X := X) (s := s) (sF := sF)) (h3 : ∀ t u, C81.Tangent X s sF D t u) (old : Buffer ℝ) (fixed : List (Fin X.S.nn))
    {t τ : ℝ} (hτ : 0 < τ) (T : Ode.Vec X.S.nn) : C81.Affine fixed (fun r : Ode.Vec X.S.nn => X.residual t (T + τ • r) r) (X.rateMatrix D old old ⟨t, T, τ, 0, 0⟩) := by
  have := C81.rate_affine h1 h2 h3 old old fixed ⟨t, T, τ, 0, 0⟩ hτ.le
  have he : (fun r : Ode.Vec X.S.nn => X.residual t (T + τ • r) r) = fun k => X.residual t (fun m => 1 * T m + τ * k m) k := by
    funext r
    have : (T + τ • r : Ode.Vec X.S.nn) = fun m => 1 * T m + τ * r m := by funext m; simp
    rw [this]
  rw [he]
  exact this

variable {old : Buffer ℝ} {conds : List (List (Fin C.nn))} {solve : ℝ → ℝ → Ode.Vec m → Ode.Vec C.nn → Ode.Vec C.nn} {linear : Elim.Mat C.nn → Ode.Vec C.nn → Ode.Vec C.nn}
  {t0 : ℝ} {dt : ℕ → ℝ} {N : ℕ} {y : Ode.Vec C.nn × Ode.Vec m}

/-- **C88, linear heat transfer.**  Dissipative linear problems, with any solver that finds the rates, give such analyses. -/
theorem C88_heat_linear (hS : Sound (C.form V m numP (C.slopes U)) b) (hn : C79.SameNodes C.M V b.toFunctions σ) (old' : Buffer ℝ)
    {A : Ode.Vec m → ℕ → C71.M d.n} {g e : Heat.Flux d → Vec ℝ d.n → Vec ℝ d.n → ℝ → ℝ} {D : Ode.Vec m → Heat.Slopes d}
    (hL : ∀ᶠ q in nhds y.2, C81.LinearProblem (C.placed (warped C numP σ pos q)) b.inner b.outer (A q) g e ∧
      C81.Dissipative (X := C.placed (warped C numP σ pos q)) (s := b.inner) (sF := b.outer) ∧ ∀ t u, C81.Tangent (C.placed (warped C numP σ pos q)) b.inner b.outer (D q) t u)
    (hT : ∀ t u a, Thermal C V m numP b U pos t u a y.2) (hU : ∀ k x, U.capacity k x 0 = 0) (hF : ∀ k x, U.flux k x 0 = 0) (hs : ∀ s t x, U.source s t x 0 = 0)
    (hdt : ∀ k < N, 0 < dt k) (bc : ℕ → Ode.Vec C.nn)
    (hsol : ∀ k < N, ∀ᶠ q in nhds y.2, ∀ T, C87.Solves conds.flatten
      (fun z : Ode.Vec C.nn × Ode.Vec C.nn × Ode.Vec m => (C.placed (warped C numP σ pos z.2.2)).residual (C59.time t0 dt (k + 1)) z.1 z.2.1) (bc k) (dt k) q T
      (solve (C59.time t0 dt (k + 1)) (dt k) q T)) :
    March (C.form V m numP (C.slopes U)) b pos old conds (C87.traj ((C.form V m numP (C.slopes U)).transient pos old old' conds solve linear) t0 dt) t0 dt N y := by
  have hres : ∀ t u a q, (C.form V m numP (C.slopes U)).residual pos t u a q = (C.placed (warped C numP σ pos q)).residual t u a := warped_residual hS (hT 0 0 0).mesh hn
  have hrun := run_affine (n := C.nn) (m := m) (p := (C.form V m numP (C.slopes U)).transient pos old old' conds solve linear)
    (G := fun t (z : Ode.Vec C.nn × Ode.Vec C.nn × Ode.Vec m) => (C.placed (warped C numP σ pos z.2.2)).residual t z.1 z.2.1) (t0 := t0) (dt := dt) (N := N) (y := y) hdt
    (fun k _ => by
      obtain ⟨L, h1, h2⟩ := C88_derivative hS (hT (C59.time t0 dt (k + 1)) _ _).smooth old old old'
      have e : (fun z : Dofs (C.form V m numP (C.slopes U)) => (C.form V m numP (C.slopes U)).residual pos (C59.time t0 dt (k + 1)) z.1 z.2.1 z.2.2) =
          fun z : Ode.Vec C.nn × Ode.Vec C.nn × Ode.Vec m => (C.placed (warped C numP σ pos z.2.2)).residual (C59.time t0 dt (k + 1)) z.1 z.2.1 := funext fun z => hres _ _ _ _
      exact ⟨L, e ▸ h1, fun v r w => funext fun i => h2 (v, r, w) i⟩)
    (fun k _ => C88_capacity_symmetric hS hU hF hs old)
    (J := fun t τ q T => (C.placed (warped C numP σ pos q)).rateMatrix (D q) old old ⟨t, T, τ, 0, 0⟩)
    (hL.mono fun q hq t τ T hτ => step_affine (X := C.placed (warped C numP σ pos q)) hq.1 hq.2.1 hq.2.2 old conds.flatten hτ T) bc hsol
  refine ⟨hrun.size, fun _ _ => (hT _ _ _).smooth, hrun.symmetric, hrun.regular, hrun.near, fun k hk => ?_⟩
  filter_upwards [hrun.solved k hk] with y' h
  exact ⟨h.1, fun i hi => (congrFun (hres _ _ _ _) i).trans (h.2 i hi)⟩

end HeatedShapes

section HeatSolver
open Serac.Heat

/-- **C88, the code's steps.**  The rate that `FirstOrderODE` computes with the code's own Newton solver and exact linear solves, boundary values enforced directly, is the one
that `C88_heat_linear` asks for. -/
theorem C88_heat_solver {d : Dim} {X : Exchange d} {s sF : C71.Shapes} {A : ℕ → C71.M d.n} {g e : Flux d → Vec ℝ d.n → Vec ℝ d.n → ℝ → ℝ} {D : Heat.Slopes d}
    (hL : C81.LinearProblem X s sF A g e) (hv : C81.Dissipative (X := X) (s := s) (sF := sF)) (hT : ∀ t u, C81.Tangent X s sF D t u) {o : Solver X.S.nn} (hlin : C78.Exact o.linear)
    (hrows : C81.Rows o.linear) (hnorm : C78.Length o.norm) (ho : C81.Iterates o.newton) {b : Ode.BCs X.S.nn} {bc : ℝ → Ode.Vec X.S.nn} (hb : Ode.Prescribes b bc) (rep : Newton.Report)
    (old : Buffer ℝ) (st : Ode.State1 X.S.nn) (t : ℝ) {τ : ℝ} (hτ : 0 < τ) (T : Ode.Vec X.S.nn) :
    let r := (Ode.solve1 b .direct (X.rateSolve D old old o b.allDofs rep) st t τ T).2
    (∀ i ∈ b.allDofs, (T + τ • r) i = bc t i) ∧ ∀ i ∉ b.allDofs, X.residual t (T + τ • r) r i = 0 := by
  have hs := C81.C81_solves hL hv hT old old (o := o) hlin hrows hnorm ho b rep
  have ht : t - τ + τ = t := sub_add_cancel t τ
  have hx : (Ode.stepBE1 b .direct (X.rateSolve D old old o b.allDofs rep) τ ⟨st, T, t - τ⟩).x =
      T + τ • (Ode.solve1 b .direct (X.rateSolve D old old o b.allDofs rep) st t τ T).2 := by
    unfold Ode.stepBE1
    dsimp only
    rw [ht]
    rfl
  obtain ⟨k, h1, -, h3⟩ := C75.heat_step_spec hs (m := .direct) (Or.inl rfl) hτ ⟨st, T, t - τ⟩
  have hk : k = (Ode.solve1 b .direct (X.rateSolve D old old o b.allDofs rep) st t τ T).2 := by
    funext i
    have := congrFun (h1.symm.trans hx) i
    simp only [one_mul] at this
    exact mul_left_cancel₀ hτ.ne' (add_left_cancel this)
  refine ⟨fun i hi => ?_, fun i hi => ?_⟩
  · have := (C21.C21_direct_run hb hs.keeps [] τ hτ.ne' ⟨st, T, t - τ⟩ i hi).2
    have hr : C21.run b .direct (X.rateSolve D old old o b.allDofs rep) ([] ++ [τ]) ⟨st, T, t - τ⟩ =
        Ode.stepBE1 b .direct (X.rateSolve D old old o b.allDofs rep) τ ⟨st, T, t - τ⟩ := rfl
    rw [hr, hx] at this
    have h5 : (Ode.stepBE1 b .direct (X.rateSolve D old old o b.allDofs rep) τ ⟨st, T, t - τ⟩).t = t := ht
    rw [h5] at this
    exact this
  · have e : ∀ (t' : ℝ) (x k' : Ode.Vec X.S.nn), t' = t → x = T + τ • k' → X.residual t' x k' i = 0 → X.residual t (T + τ • k') k' i = 0 := by
      rintro t' x k' rfl rfl h
      exact h
    exact e _ _ _ ht hx (by rw [← hk]; exact h3 i hi)

variable {d : Dim} {C : Conductor d} {V : Space} {m : ℕ} {numP : Fin V.np × Fin d.n ≃ Fin m} {b : Bases} {U : HeatUser d} {pos : C.Positions} {σ : Fin C.M.ng → Fin V.np}

/-- Spec: a linear conductor with conductivity `k`, sources that depend on place and time, cooling in proportion to the temperature; temperatures that vanish at all points of all
elements vanish. -/
structure Linear (C : Conductor d) (b : Bases) (k : ℝ) (g e : Flux d → Vec ℝ d.n → Vec ℝ d.n → ℝ → ℝ) : Prop where
  flux : ∀ p x T a, (C.material p x).flux T a = some fun i => -(k * a i)
  conducts : 0 ≤ k
  stores : ∀ p x, 0 < (C.material p x).capacity
  sources : ∀ s ∈ C.sources, ∀ x t T T' a a', s.f x t T a = s.f x t T' a'
  affine : ∀ l ∈ C.fluxes, ∀ x n t T, l.f x n t T = g l x n t + e l x n t * T
  cools : ∀ l ∈ C.fluxes, ∀ x n t, 0 ≤ e l x n t
  weights : ∀ Q < C.EF.npts, 0 ≤ b.wtF Q
  inside : (∀ e ∈ C.elements, e < C.M.ne) ∧ (∀ s ∈ C.sources, ∀ e ∈ s.elements, e < C.M.ne) ∧ ∀ l ∈ C.fluxes, ∀ e ∈ l.elements, e < C.M.nf
  values : ∀ z : ℕ → ℝ, (∀ Q < C.E.npts, ∑ a ∈ range C.E.ndof, z a * b.phi Q a = 0) → ∀ a < C.E.ndof, z a = 0
  nodes : ∀ n, ∃ e ∈ C.elements, ∃ a < C.E.ndof, C.conn e a = n

/-- The derivatives of its functions. -/
def linearSlopes (d : Dim) (k : ℝ) (e : Flux d → Vec ℝ d.n → Vec ℝ d.n → ℝ → ℝ) : Heat.Slopes d where
  fluxT _ _ _ := 0
  fluxG _ _ _ := -(k • (1 : C71.M d.n))
  sourceT _ _ _ _ _ := 0
  sourceG _ _ _ _ _ := 0
  exchange l x n t _ := e l x n t

variable {k : ℝ} {g e : Flux d → Vec ℝ d.n → Vec ℝ d.n → ℝ → ℝ}

theorem unit_mul {n : ℕ} (k : ℝ) (a : Fin n → ℝ) (i : Fin n) : ∑ j, (k • (1 : C71.M n)) i j * a j = k * a i := by
  simp [Matrix.one_apply]

theorem Linear.law (h : Linear C b k g e) (p : ℕ) (x : Point d) (T : ℝ) (a : Vec ℝ d.n) : (C.material p x).flux T a = some fun i => -∑ j, (k • (1 : C71.M d.n)) i j * a j := by
  rw [h.flux]
  congr 1
  funext i
  rw [unit_mul]

/-- On positions where the mesh is regular it is a dissipative linear problem. -/
theorem Linear.problem (h : Linear C b k g e) (hS : Sound (C.form V m numP (C.slopes U)) b) (pos : C.Positions)
    (h1 : ∀ e ∈ C.elements, ∀ Q < C.E.npts, 0 < b.wt Q * (C72.jac (C.placed pos).S b.inner e Q).det)
    (h2 : ∀ s ∈ C.sources, ∀ e ∈ s.elements, ∀ Q < C.E.npts, (C72.jac (C.placed pos).S b.inner e Q).det ≠ 0)
    (h3 : ∀ l ∈ C.fluxes, ∀ e ∈ l.elements, ∀ Q < C.EF.npts, C75.area d (C75.tangents (C.placed pos).F b.outer pos e Q) ≠ 0) :
    C81.LinearProblem (C.placed pos) b.inner b.outer (fun _ => k • (1 : C71.M d.n)) g e ∧ C81.Dissipative (X := C.placed pos) (s := b.inner) (sF := b.outer) ∧
      ∀ t u, C81.Tangent (C.placed pos) b.inner b.outer (linearSlopes d k e) t u := by
  refine ⟨⟨⟨⟨hS.trial, hS.test, hS.mesh.G, hS.dim⟩, ⟨fun e he => ⟨h.inside.1 e he, fun Q hQ => right_ne_zero_of_mul (h1 e he Q hQ).ne'⟩, fun src hsrc => ?_⟩,
      ⟨hS.trialF, hS.testF, hS.mesh.GF, hS.dimF⟩, fun l hl e he => ⟨h.inside.2.2 l hl e he, fun Q hQ => h3 l hl e he Q hQ⟩⟩,
    ⟨fun p T a => h.law p _ T a, fun p i j => ?_⟩, fun src hsrc t p T T' a a' => ?_, ⟨h.affine, h.cools⟩⟩,
    ⟨fun e he Q hQ => (h1 e he Q hQ).le, h.weights, fun p T a q hq => ?_, fun p => (h.stores p _).le, fun x hx => ?_⟩, fun t u => ⟨fun ee _ Q _ => ?_, fun src hsrc ee _ Q _ => ?_, fun l hl ee _ Q _ => ?_⟩⟩
  · obtain ⟨s, hs, rfl⟩ := List.mem_map.1 hsrc
    exact fun e he => ⟨h.inside.2.1 s hs e he, fun Q hQ => h2 s hs e he Q hQ⟩
  · simp only [Matrix.smul_apply, Matrix.one_apply, eq_comm]
  · obtain ⟨s, hs, rfl⟩ := List.mem_map.1 hsrc
    exact h.sources s hs _ t T T' a a'
  · have e := (h.flux p _ T a).symm.trans hq
    rw [← Option.some.inj e]
    have : ∑ i, -(k * a i) * a i = -(k * ∑ i, a i ^ 2) := by
      rw [mul_sum, ← sum_neg_distrib]
      exact sum_congr rfl fun i _ => by ring
    rw [this]
    exact neg_nonpos.2 (mul_nonneg h.conducts (sum_nonneg fun i _ => sq_nonneg _))
  · have hz := C72.integral_eq_zero (S := (C.placed pos).S) h1 (fun ee _ Q _ => mul_nonneg (h.stores _ _).le (sq_nonneg _)) hx
    funext n
    obtain ⟨e, he, a, ha, rfl⟩ := h.nodes n
    obtain ⟨i, hi, he'⟩ := List.mem_iff_getElem.1 he
    have hee : (e, i) ∈ C.elements.zipIdx := by
      rw [List.mem_zipIdx_iff_getElem?, List.getElem?_eq_getElem hi, he']
    refine h.values (fun a => x (C.conn e a)) (fun Q hQ => ?_) a ha
    have := hz (e, i) hee Q hQ
    have h3 := (mul_eq_zero.1 this).resolve_left (h.stores _ _).ne'
    exact pow_eq_zero_iff two_ne_zero |>.1 h3
  · exact C81.conducts_linear (fun T a => h.law _ _ T a) _ _
  · obtain ⟨s, hs, rfl⟩ := List.mem_map.1 hsrc
    refine (Diff.const (s.f (C.pointOf pos s.elements (ee.2 * C.E.npts + Q)) t 0 0) _).congr (fun z => h.sources s hs _ t _ _ _ _) fun z => ?_
    simp [linearSlopes]
  · refine ((Diff.linear (e l (C75.place (C.placed pos).F b.outer pos ee.1 Q) _ t • ContinuousLinearMap.id ℝ ℝ) _).const_add (g l _ _ t)).congr (fun z => h.affine l hl _ _ t z) fun z => ?_
    rfl

theorem warped_continuous (n : Fin C.M.ng) (i : Fin d.n) : Continuous fun q' : Ode.Vec m => warped C numP σ pos q' n i :=
  continuous_const.add (continuous_apply (A := fun _ : Fin m => ℝ) (numP (σ n, i)))

theorem warped_jac (e Q : ℕ) : Continuous fun q' : Ode.Vec m => C72.jac (C.placed (warped C numP σ pos q')).S b.inner e Q :=
  continuous_matrix fun i k => by
    change Continuous fun q' : Ode.Vec m => ∑ a ∈ range C.M.G.ndof, warped C numP σ pos q' (C.M.conn e a) i * b.dX Q a k
    exact continuous_finsetSum _ fun a _ => (warped_continuous (C.M.conn e a) i).mul continuous_const

theorem warped_area {q : Ode.Vec m} {e Q : ℕ} (h : C75.area d (C75.tangents (C.placed (warped C numP σ pos q)).F b.outer (warped C numP σ pos q) e Q) ≠ 0) :
    ∀ᶠ q' in nhds q, C75.area d (C75.tangents (C.placed (warped C numP σ pos q')).F b.outer (warped C numP σ pos q') e Q) ≠ 0 := by
  simp only [area_cross] at h ⊢
  have h1 : Continuous fun q' : Ode.Vec m => (C75.tangents (C.placed (warped C numP σ pos q')).F b.outer (warped C numP σ pos q') e Q : Mat ℝ d.n (faceDim d)) :=
    continuous_matrix fun i k => by
      change Continuous fun q' : Ode.Vec m => ∑ a ∈ range C.M.GF.ndof, warped C numP σ pos q' (C.M.connF e a) i * b.dXF Q a k
      exact continuous_finsetSum _ fun a _ => (warped_continuous (C.M.connF e a) i).mul continuous_const
  have h2 : ∀ J : Mat ℝ d.n (faceDim d), ContinuousAt (fun J : Mat ℝ d.n (faceDim d) => crossAt d J) J := fun J =>
    (sd_cross (f := fun J => J) (f' := fun J => J) (SD.linear (ContinuousLinearMap.id ℝ (Mat ℝ d.n (faceDim d))) J)).continuousAt
  exact (ContinuousAt.comp (h2 _) h1.continuousAt).eventually_ne h

/-- **C88, linear conductors with the code's own solver.**  It is enough that the displaced mesh is regular: transient analyses meet the hypotheses of `C88_transient`. -/
theorem C88_conductor (h : Linear C b k g e) (hS : Sound (C.form V m numP (C.slopes U)) b) (hn : C79.SameNodes C.M V b.toFunctions σ) {y : Ode.Vec C.nn × Ode.Vec m}
    (hv : ∀ e ∈ C.elements, ∀ Q < C.E.npts, 0 < b.wt Q * (C72.jac (C.placed (warped C numP σ pos y.2)).S b.inner e Q).det)
    (hT : ∀ t u a, Thermal C V m numP b U pos t u a y.2) (hU : ∀ k x, U.capacity k x 0 = 0) (hF : ∀ k x, U.flux k x 0 = 0) (hs : ∀ s t x, U.source s t x 0 = 0)
    {o : Solver C.nn} (hlin : C78.Exact o.linear) (hrows : C81.Rows o.linear) (hnorm : C78.Length o.norm) (ho : C81.Iterates o.newton) {bcs : Ode.BCs C.nn} {bc : ℝ → Ode.Vec C.nn}
    (hb : Ode.Prescribes bcs bc) {conds : List (List (Fin C.nn))} (hc : conds.flatten = bcs.allDofs) (old old' : Buffer ℝ)
    {solve : ℝ → ℝ → Ode.Vec m → Ode.Vec C.nn → Ode.Vec C.nn} (linear : Elim.Mat C.nn → Ode.Vec C.nn → Ode.Vec C.nn)
    (hsolve : ∀ t τ q T, ∃ st rep, solve t τ q T =
      (Ode.solve1 bcs .direct ((C.placed (warped C numP σ pos q)).rateSolve (linearSlopes d k e) old old o bcs.allDofs rep) st t τ T).2)
    (t0 : ℝ) {dt : ℕ → ℝ} {N : ℕ} (hdt : ∀ k < N, 0 < dt k) :
    March (C.form V m numP (C.slopes U)) b pos old conds (C87.traj ((C.form V m numP (C.slopes U)).transient pos old old' conds solve linear) t0 dt) t0 dt N y := by
  have hJ : ∀ e Q, C72.jac (C.placed (warped C numP σ pos y.2)).S b.inner e Q = (inHeat C V m numP b U pos 0 0 y.2 e Q).1.2 := fun e Q =>
    (C79.C79_nodes hn pos fun n i => y.2 (numP (n, i))).deriv e Q
  have hA : ∀ e Q, C75.tangents (C.placed (warped C numP σ pos y.2)).F b.outer (warped C numP σ pos y.2) e Q = (onHeat C V m numP b U pos 0 y.2 e Q).1.2 := fun e Q =>
    (C79.C79_nodes hn pos fun n i => y.2 (numP (n, i))).derivF e Q
  have h1 : ∀ᶠ q' in nhds y.2, ∀ e ∈ C.elements, ∀ Q ∈ List.range C.E.npts, 0 < b.wt Q * (C72.jac (C.placed (warped C numP σ pos q')).S b.inner e Q).det := by
    refine C77.eventually_list _ _ _ fun e he => C77.eventually_list _ _ _ fun Q hQ => ?_
    exact (continuous_const.mul (warped_jac e Q).matrix_det).continuousAt.eventually (lt_mem_nhds (hv e he Q (List.mem_range.1 hQ)))
  have h2 : ∀ᶠ q' in nhds y.2, ∀ s ∈ C.sources, ∀ e ∈ s.elements, ∀ Q ∈ List.range C.E.npts, (C72.jac (C.placed (warped C numP σ pos q')).S b.inner e Q).det ≠ 0 := by
    refine C77.eventually_list _ _ _ fun s hs => C77.eventually_list _ _ _ fun e he => C77.eventually_list _ _ _ fun Q hQ => ?_
    refine (warped_jac e Q).matrix_det.continuousAt.eventually_ne ?_
    rw [hJ]
    exact (hT 0 0 0).movedS s hs e he Q (List.mem_range.1 hQ)
  have h3 : ∀ᶠ q' in nhds y.2, ∀ l ∈ C.fluxes, ∀ e ∈ l.elements, ∀ Q ∈ List.range C.EF.npts,
      C75.area d (C75.tangents (C.placed (warped C numP σ pos q')).F b.outer (warped C numP σ pos q') e Q) ≠ 0 := by
    refine C77.eventually_list _ _ _ fun l hl => C77.eventually_list _ _ _ fun e he => C77.eventually_list _ _ _ fun Q hQ => warped_area ?_
    rw [hA]
    exact (hT 0 0 0).movedF l hl e he Q (List.mem_range.1 hQ)
  have hL : ∀ᶠ q in nhds y.2, C81.LinearProblem (C.placed (warped C numP σ pos q)) b.inner b.outer (fun _ => k • (1 : C71.M d.n)) g e ∧
      C81.Dissipative (X := C.placed (warped C numP σ pos q)) (s := b.inner) (sF := b.outer) ∧
      ∀ t u, C81.Tangent (C.placed (warped C numP σ pos q)) b.inner b.outer (linearSlopes d k e) t u := by
    filter_upwards [h1, h2, h3] with q' q1 q2 q3
    exact h.problem hS _ (fun e he Q hQ => q1 e he Q (List.mem_range.2 hQ)) (fun s hs e he Q hQ => q2 s hs e he Q (List.mem_range.2 hQ))
      fun l hl e he Q hQ => q3 l hl e he Q (List.mem_range.2 hQ)
  refine C88_heat_linear hS hn old' (A := fun _ _ => k • (1 : C71.M d.n)) (D := fun _ => linearSlopes d k e) hL hT hU hF hs hdt (fun k => bc (C59.time t0 dt (k + 1))) fun k hk => ?_
  filter_upwards [hL] with q hq T
  obtain ⟨st, rep, he⟩ := hsolve (C59.time t0 dt (k + 1)) (dt k) q T
  rw [he, hc]
  exact C88_heat_solver hq.1 hq.2.1 hq.2.2 hlin hrows hnorm ho hb rep old st _ (hdt k hk) T

end HeatSolver

section HeatExample

/-- The square of C79, with capacity and source that depend on the position, and cooling. -/
def exPlate : Conductor .two := { C79.exConductor with sources := [⟨[0, 1, 2, 3], fun x t _ _ => (show Fin 2 → ℝ from x.1) 1 * t⟩] }

def exUser : HeatUser .two where
  capacity _ x w := 2 * (show Fin 2 → ℝ from x.1) 0 * (show Fin 2 → ℝ from w.1) 0
  flux _ _ w := fun i => -2 * w.2.2 i
  source _ t _ w := (show Fin 2 → ℝ from w.1.1) 1 * t
  boundary _ _ y w := 2 * (show Fin 2 → ℝ from y.1.1) 0 * (show Fin 2 → ℝ from w.1.1) 0 * y.2 + (1 + (show Fin 2 → ℝ from y.1.1) 0 ^ 2) * w.2

theorem plate_sound : Sound (exPlate.form C79.exV 10 exNum (exPlate.slopes exUser)) exBases :=
  ⟨(C51.C51_simplex C72.tri3).2, (C51.C51_simplex C72.tri3).1, (C51.C51_segment C75.exRule).2, (C51.C51_segment C75.exRule).1, C79.ex_meaning, rfl, rfl, rfl, rfl, by norm_num [Dim.n]⟩

theorem plate_linear : Linear exPlate exBases 2 (fun _ _ _ _ => 0) fun _ x _ _ => 1 + (show Fin 2 → ℝ from x) 0 ^ 2 := by
  refine ⟨fun p x T a => ?_, by norm_num, fun p x => ?_, fun s hs x t T T' a a' => ?_, fun l hl x n t T => ?_, fun l hl x n t => by positivity, fun Q hQ => ?_, ⟨fun e he => ?_, fun s hs e he => ?_, fun l hl e he => ?_⟩,
    fun z hz => ?_, ?_⟩
  · change some _ = some _
    congr 1
    funext i
    ring
  · change 0 < 1 + (show Fin 2 → ℝ from x.1) 0 ^ 2
    positivity
  · rw [List.mem_singleton.1 (show s ∈ [_] from hs)]
  · rw [List.mem_singleton.1 (show l ∈ [C75.exCooling] from hl), zero_add]
    rfl
  · simp [exBases, C75.exSF, C75.exRule]
  · have : e = 0 ∨ e = 1 ∨ e = 2 ∨ e = 3 := by simpa using (show e ∈ [0, 1, 2, 3] from he)
    change e < 4
    omega
  · rw [List.mem_singleton.1 (show s ∈ [_] from hs)] at he
    have : e = 0 ∨ e = 1 ∨ e = 2 ∨ e = 3 := by simpa using (show e ∈ [0, 1, 2, 3] from he)
    change e < 4
    omega
  · rw [List.mem_singleton.1 (show l ∈ [C75.exCooling] from hl)] at he
    have : e = 0 ∨ e = 2 := by simpa using (show e ∈ [0, 2] from he)
    change e < 4
    omega
  · have h0 := hz 0 (show 0 < 3 by norm_num)
    have h1 := hz 1 (show 1 < 3 by norm_num)
    have h2 := hz 2 (show 2 < 3 by norm_num)
    change ∑ a ∈ range 3, z a * C72.exShapes.phi 0 a = 0 at h0
    change ∑ a ∈ range 3, z a * C72.exShapes.phi 1 a = 0 at h1
    change ∑ a ∈ range 3, z a * C72.exShapes.phi 2 a = 0 at h2
    simp [C72.exShapes, C72.tri3, sum_range_succ] at h0 h1 h2
    change ∀ a < 3, z a = 0
    intro a ha
    interval_cases a <;> linarith
  · change ∀ n : Fin 5, ∃ e ∈ [0, 1, 2, 3], ∃ a < 3, C71.exConn e a = n
    decide

abbrev exWarped (q : Ode.Vec 10) : exPlate.Positions := warped exPlate exNum exFlip C71.exPos q

theorem sd_square {X : Type} [NormedAddCommGroup X] [NormedSpace ℝ X] (L : X →L[ℝ] ℝ) (x : X) : SD (fun y => 1 + L y ^ 2) (fun w => 2 * L x * L w) x :=
  (((SD.linear L x).mul (SD.linear L x)).const_add 1).congr (fun y => by ring) fun w => by ring

theorem plate_thermal {q : Ode.Vec 10} (h1 : ∀ e ∈ [0, 1, 2, 3], ∀ Q < 3, (C72.jac (exPlate.placed (exWarped q)).S exBases.inner e Q).det ≠ 0)
    (h2 : ∀ e < 4, ∀ Q < 1, C75.area .two (C75.tangents (exPlate.placed (exWarped q)).F exBases.outer (exWarped q) e Q) ≠ 0) (t : ℝ) (u a : Ode.Vec 5) :
    Thermal exPlate C79.exV 10 exNum exBases exUser C71.exPos t u a q := by
  have hJ : ∀ e Q, C72.jac (exPlate.placed (exWarped q)).S exBases.inner e Q = (inHeat exPlate C79.exV 10 exNum exBases exUser C71.exPos u a q e Q).1.2 := fun e Q =>
    (C79.C79_nodes ex_nodes C71.exPos fun n i => q (exNum (n, i))).deriv e Q
  have hA : ∀ e Q, C75.tangents (exPlate.placed (exWarped q)).F exBases.outer (exWarped q) e Q = (onHeat exPlate C79.exV 10 exNum exBases exUser C71.exPos u q e Q).1.2 := fun e Q =>
    (C79.C79_nodes ex_nodes C71.exPos fun n i => q (exNum (n, i))).derivF e Q
  have hin : ∀ e ∈ [0, 1, 2, 3], ∀ Q < 3, (inHeat exPlate C79.exV 10 exNum exBases exUser C71.exPos u a q e Q).1.2.det ≠ 0 := fun e he Q hQ h0 =>
    h1 e he Q hQ ((congrArg Matrix.det (hJ e Q)).trans h0)
  have hon : ∀ e < 4, ∀ Q < 1, C75.area .two (onHeat exPlate C79.exV 10 exNum exBases exUser C71.exPos u q e Q).1.2 ≠ 0 := fun e he Q hQ h0 =>
    h2 e he Q hQ ((congrArg (C75.area .two) (hA e Q)).trans h0)
  have reg : C79.AllRegularHeat exPlate exBases.toFunctions C71.exPos := by
    refine ⟨C79.ex_regular, fun f hf => ?_, fun l hl => C79.ex_regularF _ ?_⟩
    · rw [List.mem_singleton.1 (show f ∈ [_] from hf)]
      exact C79.ex_regular
    · rw [List.mem_singleton.1 (show l ∈ [_] from hl)]
      simp [C75.exCooling]
  refine ⟨reg, hin, fun s hs => ?_, fun l hl e he => hon e (plate_linear.inside.2.2 l hl e he), fun ee _ Q _ => ?_, fun ee _ Q _ => ⟨Filter.Eventually.of_forall fun z => rfl, ?_⟩, fun s hs e _ Q _ => ?_,
    fun l hl e _ Q _ => ?_⟩
  · rw [List.mem_singleton.1 (show s ∈ [_] from hs)]
    exact hin
  · intro p x
    let L : Point .two →L[ℝ] ℝ := (ContinuousLinearMap.proj (R := ℝ) (φ := fun _ : Fin 2 => ℝ) 0).comp (ContinuousLinearMap.fst ℝ (Fin 2 → ℝ) (Mat ℝ 2 2))
    exact sd_square L x
  · refine SD.lin (f := fun z : Point .two × ℝ × Vec ℝ 2 => (fun i => -2 * z.2.2 i : Fin 2 → ℝ)) (fun y z => ?_) (fun c z => ?_) _
    · funext i
      simp only [Prod.snd_add, Pi.add_apply]
      ring
    · funext i
      simp only [Prod.smul_snd, Pi.smul_apply, smul_eq_mul]
      ring
  · rw [List.mem_singleton.1 (show s ∈ [_] from hs)]
    exact SD.lin (f := fun z : Point .two × ℝ × Vec ℝ 2 => (show Fin 2 → ℝ from z.1.1) 1 * t) (fun y z => add_mul _ _ _) (fun c z => mul_assoc _ _ _) _
  · rw [List.mem_singleton.1 (show l ∈ [C75.exCooling] from hl)]
    let L : (Vec ℝ 2 × Vec ℝ 2) × ℝ →L[ℝ] ℝ := (ContinuousLinearMap.proj (R := ℝ) (φ := fun _ : Fin 2 => ℝ) 0).comp
      ((ContinuousLinearMap.fst ℝ (Fin 2 → ℝ) (Fin 2 → ℝ)).comp (ContinuousLinearMap.fst ℝ ((Fin 2 → ℝ) × (Fin 2 → ℝ)) ℝ))
    exact ((sd_square L _).mul (SD.linear (ContinuousLinearMap.snd ℝ ((Fin 2 → ℝ) × (Fin 2 → ℝ)) ℝ) _)).congr (fun _ => rfl) fun _ => rfl

theorem warped_zero : exWarped 0 = C71.exPos := by
  funext n
  exact add_zero _

theorem plate_mesh : (∀ e ∈ [0, 1, 2, 3], ∀ Q < 3, 0 < (C72.jac (exPlate.placed (exWarped 0)).S exBases.inner e Q).det) ∧
    ∀ e < 4, ∀ Q < 1, C75.area .two (C75.tangents (exPlate.placed (exWarped 0)).F exBases.outer (exWarped 0) e Q) ≠ 0 := by
  rw [warped_zero]
  exact ⟨fun e he Q hQ => C72.ex_det [] (show e = 0 ∨ e = 1 ∨ e = 2 ∨ e = 3 by simpa using he) hQ,
    fun e he Q hQ => (C75.ex_faces_good [e] (by simpa using he) e (by simp)).2 Q hQ⟩

/-- The code's solver, started from rest in every step. -/
def exHeatSolve (old : Buffer ℝ) (o : Newton.Options) : ℝ → ℝ → Ode.Vec 10 → Ode.Vec 5 → Ode.Vec 5 := fun t τ q T =>
  (Ode.solve1 C72.exWalls .direct ((exPlate.placed (exWarped q)).rateSolve (linearSlopes .two 2 fun _ x _ _ => 1 + (show Fin 2 → ℝ from x) 0 ^ 2) old old (C81.exSolver o) C72.exWalls.allDofs
    ⟨.fin 0, false, 0, .fin 0⟩) ⟨0, 0, 0, 0, 0⟩ t τ T).2

abbrev exHeatForm := exPlate.form C79.exV 10 exNum (exPlate.slopes exUser)

theorem plate_march (old old' : Buffer ℝ) (o : Newton.Options) (ho : C81.Iterates o) {dt : ℕ → ℝ} (hdt : ∀ k, 0 < dt k) (N : ℕ) (T : Ode.Vec 5) {q : Ode.Vec 10}
    (h1 : ∀ e ∈ [0, 1, 2, 3], ∀ Q < 3, 0 < (C72.jac (exPlate.placed (exWarped q)).S exBases.inner e Q).det)
    (h2 : ∀ e < 4, ∀ Q < 1, C75.area .two (C75.tangents (exPlate.placed (exWarped q)).F exBases.outer (exWarped q) e Q) ≠ 0) :
    March exHeatForm exBases C71.exPos old [C72.exWalls.allDofs]
      (C87.traj (exHeatForm.transient C71.exPos old old' [C72.exWalls.allDofs] (exHeatSolve old o) (C81.exSolver o).linear) 0 dt) 0 dt N (T, q) := by
  have hw : ∀ e ∈ [0, 1, 2, 3], ∀ Q < 3, 0 < exBases.wt Q * (C72.jac (exPlate.placed (exWarped q)).S exBases.inner e Q).det := fun e he Q hQ =>
    mul_pos (by simp [exBases, C72.exShapes, C72.tri3]) (h1 e he Q hQ)
  have hT := plate_thermal (fun e he Q hQ => (h1 e he Q hQ).ne') h2
  have hs : ∀ t τ q T, ∃ st rep, exHeatSolve old o t τ q T = (Ode.solve1 C72.exWalls .direct ((exPlate.placed (warped exPlate exNum exFlip C71.exPos q)).rateSolve
      (linearSlopes .two 2 fun _ x _ _ => 1 + (show Fin 2 → ℝ from x) 0 ^ 2) old old (C81.exSolver o) C72.exWalls.allDofs rep) st t τ T).2 := fun t τ q T =>
    ⟨⟨0, 0, 0, 0, 0⟩, ⟨.fin 0, false, 0, .fin 0⟩, rfl⟩
  have h := C88_conductor (C := exPlate) (σ := exFlip) (bc := fun _ _ => 0) (bcs := C72.exWalls) (y := (T, q)) plate_linear plate_sound ex_nodes hw hT
    (fun k x => mul_zero _) (fun k x => funext fun i => mul_zero _) (fun s t x => zero_mul _) (o := C81.exSolver o) (C81.ex_exact o) (C81.ex_rows o)
    (C81.ex_length o) ho C87.ex_walls (conds := [C72.exWalls.allDofs]) rfl old old' (C81.exSolver o).linear hs 0 (N := N) fun k _ => hdt k
  exact h

/-- Two steps; the objective is the temperature of the central node at the end. -/
example (old old' : Buffer ℝ) (o : Newton.Options) (ho : C81.Iterates o) (dt : ℕ → ℝ) (hdt : ∀ k, 0 < dt k) (T : Ode.Vec 5) :
    let pr := exHeatForm.transient C71.exPos old old' [C72.exWalls.allDofs] (exHeatSolve old o) (C81.exSolver o).linear
    ∃ r, TransientAdj.pass pr 0 (C87.loads (fun j => if j = 0 then ⟨0, some 0⟩ else ⟨Pi.single (4 : Fin 5) 1, some 0⟩) 2) (TransientAdj.forward pr 0 (C59.steps dt 2) (TransientAdj.start 0 T)) = some r ∧
      ∃ L : (Ode.Vec 5 × Ode.Vec 10) →L[ℝ] ℝ, HasFDerivAt (fun y' => (C87.traj pr 0 dt y' 2).1 (4 : Fin 5)) L (T, 0) ∧
        ∀ v w, (∀ i ∈ [C72.exWalls.allDofs].flatten, v i = 0) → L (v, w) = r.2.adj.D ⬝ᵥ v + r.1.sum ⬝ᵥ w := by
  intro pr
  refine C88_transient (F := exHeatForm) (y := (T, 0)) plate_sound (plate_march old old' o ho hdt 2 T plate_mesh.1 plate_mesh.2) (C81.ex_exact o) (fun z => (z 1).1 (4 : Fin 5)) _ (fun k l hkl hl h0 => ?_) ?_
  · exfalso
    by_cases hk : k = 0
    · simp [hk] at h0
    · simp [hk] at h0
  · let L : (Fin 2 → Ode.Vec 5 × Ode.Vec 5) →L[ℝ] ℝ := (ContinuousLinearMap.proj (R := ℝ) (φ := fun _ : Fin 5 => ℝ) 4).comp
      ((ContinuousLinearMap.fst ℝ (Ode.Vec 5) (Ode.Vec 5)).comp (ContinuousLinearMap.proj (R := ℝ) (φ := fun _ : Fin 2 => Ode.Vec 5 × Ode.Vec 5) 1))
    refine ⟨L, L.hasFDerivAt, fun v => ?_⟩
    rw [Fin.sum_univ_two]
    change (v 1).1 (4 : Fin 5) = _
    simp
    exact (single_one_dotProduct (4 : Fin 5) _).symm

/-- The derivative with respect to the positions of the nodes. -/
example (o : Buffer ℝ) (t : ℝ) (u a : Ode.Vec 5) : ∃ L : (Fin 5 → Fin 2 → ℝ) →L[ℝ] Ode.Vec 5,
    HasStrictFDerivAt (fun x : Fin 5 → Fin 2 → ℝ => (exPlate.placed x).residual t u a) L (fun n => C71.exPos n + fun i => (0 : Ode.Vec 10) (exNum (exFlip n, i))) ∧
    ∀ w k, L w k = ∑ j, exHeatForm.shapeMatrix C71.exPos o t u a 0 k j * w (exFlip.symm (exNum.symm j).1) (exNum.symm j).2 :=
  C88_heat_positions (C := exPlate) (σ := exFlip) plate_sound (plate_thermal (fun e he Q hQ => (plate_mesh.1 e he Q hQ).ne') plate_mesh.2 t u a) ex_nodes o

end HeatExample

end Serac.C88
