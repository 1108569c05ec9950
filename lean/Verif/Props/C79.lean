import Verif.Model.ShapedResidual
import Verif.Props.C75
import Verif.Props.C19
import Mathlib.Analysis.Calculus.FDeriv.Add
/-!
# C79: a shape displacement moves the mesh

Spec.  The shape displacement is a field on the reference mesh; the physics modules promise to solve on the displaced domain.  So the assembled residual with shape
displacement `p` on the mesh at `pos` is the assembled residual without shape displacement on the mesh whose nodes are at `pos + p` (`C79_moved` for solids with body
forces, tractions and pressures, `C79_heat` for heat transfer with sources and fluxes).  Derivatives with respect to the shape displacement are derivatives with
respect to the positions of the nodes (`C79_sensitivity`, `C79_heat_sensitivity`), shape displacements add up (`C79_compose`), and a step solves the equations of the
displaced body (`C79_equations`, `C79_heat_equations`).
-/

noncomputable section
namespace Serac.C79
open Serac.Tensor Serac.Transform Serac.Kernels Serac.Piola Serac.Solid Serac.Loads Serac.Shaped Serac.Mat Finset
open scoped Matrix

/-! ## Spec -/

/-- Shape functions and their derivatives at the quadrature points: `X` of the positions, `W` of the shape displacement, `F` on faces. -/
structure Functions where
  X : ℕ → ℕ → ℝ
  dX : ℕ → ℕ → ℕ → ℝ
  XF : ℕ → ℕ → ℝ
  dXF : ℕ → ℕ → ℕ → ℝ
  W : ℕ → ℕ → ℝ
  dW : ℕ → ℕ → ℕ → ℝ
  WF : ℕ → ℕ → ℝ
  dWF : ℕ → ℕ → ℕ → ℝ

section Spec
variable {d : Dim} (M : Mesh d) (V : Space) (s : Functions)

structure Meaning : Prop where
  G : C51.Trial M.G s.X s.dX
  GF : C51.Trial M.GF s.XF s.dXF
  W : C51.Trial V.W s.W s.dW
  WF : C51.Trial V.WF s.WF s.dWF

/-- Value and derivatives at point `Q` of element `e` of the field with nodal values `u`. -/
def value (phi : ℕ → ℕ → ℝ) (n : ℕ) {m c : ℕ} (conn : ℕ → ℕ → Fin m) (u : Fin m → Vec ℝ c) (e Q : ℕ) : Vec ℝ c :=
  fun i => ∑ a ∈ range n, u (conn e a) i * phi Q a
def deriv (dphi : ℕ → ℕ → ℕ → ℝ) (n : ℕ) {m c : ℕ} (conn : ℕ → ℕ → Fin m) (u : Fin m → Vec ℝ c) (r e Q : ℕ) : Matrix (Fin c) (Fin r) ℝ :=
  fun i k => ∑ a ∈ range n, u (conn e a) i * dphi Q a k

/-- `pos'` is `pos` displaced by the field `p`: at all points of elements and faces. -/
structure Displaced (pos : Fin M.ng → Vec ℝ d.n) (p : Fin V.np → Vec ℝ d.n) (pos' : Fin M.ng → Vec ℝ d.n) : Prop where
  value : ∀ e Q, value s.X M.G.ndof M.conn pos' e Q = value s.X M.G.ndof M.conn pos e Q + value s.W V.W.ndof V.conn p e Q
  deriv : ∀ e Q, deriv s.dX M.G.ndof M.conn pos' d.n e Q = deriv s.dX M.G.ndof M.conn pos d.n e Q + deriv s.dW V.W.ndof V.conn p d.n e Q
  valueF : ∀ e Q, C79.value s.XF M.GF.ndof M.connF pos' e Q = C79.value s.XF M.GF.ndof M.connF pos e Q + C79.value s.WF V.WF.ndof V.connF p e Q
  derivF : ∀ e Q, C79.deriv s.dXF M.GF.ndof M.connF pos' (faceDim d) e Q =
    C79.deriv s.dXF M.GF.ndof M.connF pos (faceDim d) e Q + C79.deriv s.dWF V.WF.ndof V.connF p (faceDim d) e Q

/-- The reference mesh is not degenerate at the points of a list of elements, of a list of faces. -/
def Regular (pos : Fin M.ng → Vec ℝ d.n) (npts : ℕ) (l : List ℕ) : Prop := ∀ e ∈ l, ∀ Q < npts, (deriv s.dX M.G.ndof M.conn pos d.n e Q).det ≠ 0
def RegularF (pos : Fin M.ng → Vec ℝ d.n) (npts : ℕ) (l : List ℕ) : Prop :=
  ∀ e ∈ l, ∀ Q < npts, C75.area d (deriv s.dXF M.GF.ndof M.connF pos (faceDim d) e Q) ≠ 0

/-- Integration over an element uses its quadrature points. -/
def Rule (E : Elem ℝ) : Prop := ∃ phi dphi wt, C51.Test E phi dphi wt

end Spec

/-! ## One point -/

section Point
variable {d : Dim}

/-- A quadrature point without shape displacement. -/
def plain {c : ℕ} (qf : Integrand d c) (X : Point d) (u a : Vec ℝ c × Mat ℝ c d.n) : Option (Vec ℝ c × Mat ℝ c d.n) :=
  (parentToPhysicalH1 d (storeJacobian fun _ : Fin 1 => X.2) (fun _ => u) 0).bind fun u' =>
    (parentToPhysicalH1 d (storeJacobian fun _ : Fin 1 => X.2) (fun _ => a) 0).bind fun a' =>
      (qf X u' a').bind fun r => physicalToParentH1 d (storeJacobian fun _ : Fin 1 => X.2) (fun _ => r) 0

theorem inv_singular (A : Mat ℝ d.n d.n) (h : Matrix.det A = 0) : inv d A = none := by
  cases d
  · exact (inv2_eq A).trans (if_pos h)
  · exact (inv3_eq A).trans (if_pos h)

/-- The wrapper on the reference element is the integrand on the displaced element. -/
theorem point_moved {c : ℕ} (qf : Integrand d c) (X p : Point d) (u a : Vec ℝ c × Mat ℝ c d.n) (hJ : Matrix.det X.2 ≠ 0) :
    shapedPoint qf X p u a = plain qf (X.1 + p.1, X.2 + p.2) u a := by
  obtain ⟨X, J⟩ := X
  obtain ⟨p, P⟩ := p
  dsimp only at hJ ⊢
  have hT : Matrix.det (Jᵀ : Mat ℝ d.n d.n) ≠ 0 := by rwa [Matrix.det_transpose]
  have hadd : (1 + P * J⁻¹ : Mat ℝ d.n d.n) * J = J + P := by
    rw [Matrix.add_mul, Matrix.one_mul, Matrix.mul_assoc, Matrix.nonsing_inv_mul _ hJ.isUnit, Matrix.mul_one]
  unfold shapedPoint plain
  have hp : parentToPhysicalH1 d (storeJacobian fun _ : Fin 1 => J) (fun _ => (p, P)) 0 = some (p, P * J⁻¹) := by
    unfold parentToPhysicalH1
    simp only [loadJ_store]
    rw [inv_eq d J hJ, Option.map_some, dot_eq]
  rw [hp, Option.bind_some]
  by_cases hP : (1 + P * J⁻¹ : Matrix (Fin d.n) (Fin d.n) ℝ).det = 0
  · have h0 : Matrix.det (J + P) = 0 := by rw [← hadd, Matrix.det_mul, hP, zero_mul]
    have h1 : parentToPhysicalH1 d (storeJacobian fun _ : Fin 1 => J + P) (fun _ => u) 0 = none := by
      unfold parentToPhysicalH1
      simp only [loadJ_store]
      rw [inv_singular _ h0, Option.map_none]
    have h2 : mkShapeCorrection d (P * J⁻¹) = none := by
      unfold mkShapeCorrection
      rw [identity_eq, addM_eq]
      dsimp only
      rw [inv_singular _ hP, Option.map_none]
    rw [h1, Option.bind_none, h2]
    simp
  · obtain ⟨σ, hσ, hu⟩ := C19.C19_H1_trial d (fun _ : Fin 1 => J) (fun _ => P * J⁻¹) (fun _ => u) 0 hJ hP
    obtain ⟨σ', hσ', ha⟩ := C19.C19_H1_trial d (fun _ : Fin 1 => J) (fun _ => P * J⁻¹) (fun _ => a) 0 hJ hP
    obtain rfl : σ = σ' := Option.some_inj.1 (hσ.symm.trans hσ')
    simp only [hadd] at hu ha
    rw [← hu, ← ha, hσ]
    cases parentToPhysicalH1 d (storeJacobian fun _ : Fin 1 => J) (fun _ => u) 0 with
    | none => rfl
    | some u' =>
      cases parentToPhysicalH1 d (storeJacobian fun _ : Fin 1 => J) (fun _ => a) 0 with
      | none => rfl
      | some a' =>
        simp only [Option.bind_some, Option.map_some]
        have e : shapedPosition d X p J (P * J⁻¹) = (X + p, J + P) := by
          unfold shapedPosition
          rw [dot_eq, addV_eq, addM_eq, ← hadd, Matrix.add_mul, Matrix.one_mul]
        rw [e]
        cases qf (X + p, J + P) (σ.trialH1 u') (σ.trialH1 a') with
        | none => rfl
        | some r =>
          simp only [Option.bind_some]
          obtain ⟨σ'', hσ'', hr⟩ := C19.C19_H1_test d (fun _ : Fin 1 => J) (fun _ => P * J⁻¹) (fun _ => r) 0 hJ hP
          obtain rfl : σ = σ'' := Option.some_inj.1 (hσ.symm.trans hσ'')
          simp only [hadd] at hr
          exact hr

/-- A source without flux. -/
theorem plain_source {c : ℕ} (f : Point d → Vec ℝ c) (X : Point d) (u a : Vec ℝ c × Mat ℝ c d.n) :
    (plain (fun x _ _ => some (f x, 0)) X u a).getD (0, 0) = (fun i => Matrix.det X.2 * f X i, 0) := by
  unfold plain parentToPhysicalH1 physicalToParentH1
  simp only [loadJ_store, loadJT_store]
  by_cases h : Matrix.det X.2 = 0
  · rw [inv_singular _ h, h]
    simp only [Option.map_none, Option.bind_none, Option.getD_none, zero_mul]
    rfl
  · have hT : Matrix.det (X.2ᵀ : Mat ℝ d.n d.n) ≠ 0 := by rwa [Matrix.det_transpose]
    rw [inv_eq d _ h, inv_eq d _ hT]
    simp only [Option.map_some, Option.bind_some, Option.getD_some, dot_eq, Matrix.zero_mul, det_eq, Matrix.det_transpose, smulV_eq, smulM_eq, smul_zero]
    rfl

/-- A boundary integrand that has no result on a degenerate face, three dimensions. -/
theorem face3 {c : ℕ} (qf : Face3 → Option (Vec ℝ c)) (X p : Face3) (hX : crossCols X.2 ≠ 0)
    (hq : crossCols (X.2 + p.2) = 0 → qf (add3 X p) = none) : weigh3 (shaped3 qf p) X = weigh3 (shaped3 qf (0, 0)) (X.1 + p.1, X.2 + p.2) := by
  have hn : Transform.norm (crossCols X.2) ≠ 0 := C19.sqrt_ne hX
  have e0 : add3 (X.1 + p.1, X.2 + p.2) (0, 0) = add3 X p := by
    unfold add3
    rw [addV_eq, addM_eq, addV_eq, addM_eq]
    exact Prod.ext (add_zero _) (add_zero _)
  unfold weigh3 shaped3
  rw [e0]
  by_cases h : crossCols (X.2 + p.2) = 0
  · rw [hq h]
    rfl
  · cases qf (add3 X p) with
    | none => rfl
    | some r =>
      have h' : Transform.norm (crossCols (X.2 + p.2)) ≠ 0 := C19.sqrt_ne h
      simp only [Option.bind_some]
      rw [if_neg hn, if_neg h', Option.map_some, Option.map_some]
      simp only [smulV_eq, smul_smul, areaCorrection3, addM_eq]
      congr 2
      rw [mul_div_cancel₀ _ hn]
      change _ = Transform.norm (crossCols (X.2 + p.2)) * (Transform.norm (crossCols (X.2 + p.2 + 0)) / _)
      rw [add_zero, mul_div_cancel₀ _ h']

/-- Two dimensions. -/
theorem face2 {c : ℕ} (qf : Face2 → Option (Vec ℝ c)) (X p : Face2) (hX : crossFace2 X.2 ≠ 0)
    (hq : crossFace2 (X.2 + p.2) = 0 → qf (add2 X p) = none) : weigh2 (shaped2 qf p) X = weigh2 (shaped2 qf (0, 0)) (X.1 + p.1, X.2 + p.2) := by
  have hn : Transform.norm (crossFace2 X.2) ≠ 0 := C19.sqrt_ne hX
  have e0 : add2 (X.1 + p.1, X.2 + p.2) (0, 0) = add2 X p := by
    unfold add2
    rw [addV_eq, addV_eq, addV_eq, addV_eq]
    exact Prod.ext (add_zero _) (add_zero _)
  unfold weigh2 shaped2
  rw [e0]
  by_cases h : crossFace2 (X.2 + p.2) = 0
  · rw [hq h]
    rfl
  · cases qf (add2 X p) with
    | none => rfl
    | some r =>
      have h' : Transform.norm (crossFace2 (X.2 + p.2)) ≠ 0 := C19.sqrt_ne h
      simp only [Option.bind_some]
      rw [if_neg hn, if_neg h', Option.map_some, Option.map_some]
      simp only [smulV_eq, smul_smul, areaCorrection2, addV_eq]
      congr 2
      rw [mul_div_cancel₀ _ hn]
      change _ = Transform.norm (crossFace2 (X.2 + p.2)) * (Transform.norm (crossFace2 (X.2 + p.2 + 0)) / _)
      rw [add_zero, mul_div_cancel₀ _ h']

theorem norm_zero {n : ℕ} {v : Vec ℝ n} (h : v = 0) : Transform.norm v = 0 := (C65.len_zero v).2 h

theorem area_two (J : Matrix (Fin Dim.two.n) (Fin (faceDim .two)) ℝ) : C75.area .two J = crossFace2 fun i => J i 0 := rfl
theorem area_three (J : Matrix (Fin Dim.three.n) (Fin (faceDim .three)) ℝ) : C75.area .three J = crossCols J := (C75.cross_three J).symm

/-- A load with shape displacement is the load on the displaced face. -/
theorem load_moved (on : Bool) (t : ℝ) (X p u : FacePoint d) (l : Load d) (h : C75.area d X.2 ≠ 0) :
    shapedLoad on t X p u l = l.at on t (X.1 + p.1, X.2 + p.2) u := by
  cases d with
  | two =>
    cases l with
    | traction l f =>
      refine face2 _ (line X) (line p) h fun h0 => ?_
      unfold traction2 add2
      rw [addV_eq, addV_eq, norm_zero h0, C65.divN_none, Option.map_none]
    | pressure l f =>
      refine face2 _ (line X) (line p) h fun h0 => ?_
      unfold pressure2 add2
      simp only [addV_eq]
      rw [norm_zero h0, C65.divN_none, Option.map_none]
  | three =>
    rw [area_three] at h
    cases l with
    | traction l f =>
      refine face3 _ X p h fun h0 => ?_
      unfold traction3 add3
      rw [addV_eq, addM_eq, norm_zero h0, C65.divN_none, Option.map_none]
    | pressure l f =>
      refine face3 _ X p h fun h0 => ?_
      unfold pressure3 add3
      simp only [addV_eq, addM_eq]
      rw [norm_zero h0, C65.divN_none, Option.map_none]

theorem flux_moved (f : Vec ℝ d.n → Vec ℝ d.n → ℝ → ℝ → ℝ) (t temp : ℝ) (X p : FacePoint d) (h : C75.area d X.2 ≠ 0) :
    shapedFlux d f t temp X p = fluxAt d f t temp (X.1 + p.1, X.2 + p.2) := by
  cases d with
  | two =>
    refine face2 _ (line X) (line p) h fun h0 => ?_
    unfold flux2 add2
    rw [addV_eq, addV_eq, norm_zero h0, C65.divN_none, Option.map_none]
  | three =>
    rw [area_three] at h
    refine face3 _ X p h fun h0 => ?_
    unfold flux3 add3
    rw [addV_eq, addM_eq, norm_zero h0, C65.divN_none, Option.map_none]

end Point

/-! ## The kernel -/

theorem foldl_congr {A B : Type} {f g : A → B → A} (l : List B) (h : ∀ b ∈ l, ∀ a, f a b = g a b) (a : A) : l.foldl f a = l.foldl g a := by
  induction l generalizing a with
  | nil => rfl
  | cons b l ih =>
    rw [List.foldl_cons, List.foldl_cons, h b List.mem_cons_self, ih fun b' hb' => h b' (List.mem_cons_of_mem _ hb')]

/-- The kernel calls the q-function at the quadrature points of its elements only. -/
theorem eval_congr {test trial : Elem ℝ} (h : Rule test) (c m : ℕ) (zs zf : Bool) {qf qf' : PointFn ℝ} {elements : List ℕ}
    (hq : ∀ ee ∈ elements.zipIdx, ∀ Q < test.npts, ∀ v g, qf (ee.2 * test.npts + Q) v g = qf' (ee.2 * test.npts + Q) v g) (U r : ℕ → ℝ) :
    evalKernel test trial c m zs zf qf elements U r = evalKernel test trial c m zs zf qf' elements U r := by
  obtain ⟨phi, dphi, wt, h⟩ := h
  unfold evalKernel
  refine foldl_congr _ (fun ee he mem => ?_) r
  dsimp only
  unfold integrateInto
  cases zs <;> cases zf <;> simp only [nonzero, if_true, Bool.false_eq_true, if_false, Option.isNone_some, Option.isNone_none]
  all_goals
    refine foldl_congr _ (fun j _ mem => foldl_congr _ (fun i _ mem => foldl_congr _ (fun k hk mem => ?_) mem) mem) mem
    rw [h _ k (List.mem_range.1 hk), h _ k (List.mem_range.1 hk)]
    congr 1
    refine sum_congr rfl fun Q hQ => ?_
    simp only [component, Flat.read, hq ee he Q (mem_range.1 hQ)]

section Fields
variable {d : Dim} {M : Mesh d} {V : Space} {s : Functions} {pos pos' : Fin M.ng → Vec ℝ d.n} {p : Fin V.np → Vec ℝ d.n}

theorem inside_moved (hm : Meaning M V s) (h : Displaced M V s pos p pos') (e Q : ℕ) :
    inside M.G M.conn pos' e Q =
      ((inside M.G M.conn pos e Q).1 + (inside V.W V.conn p e Q).1, (inside M.G M.conn pos e Q).2 + (inside V.W V.conn p e Q).2) := by
  unfold inside
  rw [C71.interp_eq hm.G, C71.interp_eq hm.G, C71.interp_eq hm.W]
  exact Prod.ext (h.value e Q) (h.deriv e Q)

theorem onFace_moved (hm : Meaning M V s) (h : Displaced M V s pos p pos') (e Q : ℕ) :
    onFace M.GF M.connF pos' e Q =
      ((onFace M.GF M.connF pos e Q).1 + (onFace V.WF V.connF p e Q).1, (onFace M.GF M.connF pos e Q).2 + (onFace V.WF V.connF p e Q).2) := by
  unfold onFace
  rw [C75.interp_eq hm.GF, C75.interp_eq hm.GF, C75.interp_eq hm.WF]
  exact Prod.ext (h.valueF e Q) (h.derivF e Q)

theorem regular_inside (hm : Meaning M V s) {npts : ℕ} {l : List ℕ} (h : Regular M s pos npts l) {e Q : ℕ} (he : e ∈ l) (hQ : Q < npts) :
    Matrix.det (inside M.G M.conn pos e Q).2 ≠ 0 := by
  unfold inside
  rw [C71.interp_eq hm.G]
  exact h e he Q hQ

theorem regular_face (hm : Meaning M V s) {npts : ℕ} {l : List ℕ} (h : RegularF M s pos npts l) {e Q : ℕ} (he : e ∈ l) (hQ : Q < npts) :
    C75.area d (onFace M.GF M.connF pos e Q).2 ≠ 0 := by
  unfold onFace
  rw [C75.interp_eq hm.GF]
  exact h e he Q hQ

end Fields

theorem point_index {n i Q : ℕ} (hQ : Q < n) : (i * n + Q) / n = i ∧ (i * n + Q) % n = Q := by
  rw [Nat.mul_comm]
  exact ⟨by rw [Nat.mul_add_div (by omega), Nat.div_eq_of_lt hQ, Nat.add_zero], by rw [Nat.mul_add_mod, Nat.mod_eq_of_lt hQ]⟩

theorem mem_of_zipIdx {l : List ℕ} {ee : ℕ × ℕ} (h : ee ∈ l.zipIdx) : l.getD ee.2 0 ∈ l := by
  rw [C71.getD_zipIdx h]
  exact C71.mem_zipIdx_fst h

/-! ## Solids -/

section Solids
variable {d : Dim} {B : Part d} {V : Space} {s : Functions} {pos pos' : B.Positions} {p : Fin V.np → Vec ℝ d.n}

/-- Every domain integral of the body, and every boundary integral, is over regular elements and faces of the reference mesh. -/
structure AllRegular (B : Part d) (s : Functions) (pos : B.Positions) : Prop where
  material : Regular B.M s pos B.E.npts B.elements
  forces : ∀ f ∈ B.forces, Regular B.M s pos B.E.npts f.elements
  loads : ∀ l ∈ B.loads, RegularF B.M s pos B.EF.npts l.elements

theorem material_moved (hm : Meaning B.M V s) (hE : Rule B.E) (hr : Regular B.M s pos B.E.npts B.elements) (h : Displaced B.M V s pos p pos')
    (a : Fin B.nn → Vec ℝ d.n) (U r : ℕ → ℝ) :
    evalKernel B.E B.E d.n d.n false false (B.pointFn V pos p B.elements B.stressQf a) B.elements U r =
      evalKernel B.E B.E d.n d.n false false ((B.placed pos').B.S.pointFn a) B.elements U r := by
  refine eval_congr hE _ _ _ _ (fun ee he Q hQ v g => ?_) U r
  unfold Part.pointFn Setup.pointFn
  dsimp only [Part.placed]
  rw [(point_index hQ).1, (point_index hQ).2, point_moved _ _ _ _ _ (regular_inside hm hr (mem_of_zipIdx he) hQ), ← inside_moved hm h]
  rfl

theorem force_moved (hm : Meaning B.M V s) (hE : Rule B.E) {f : BodyForce d} (hr : Regular B.M s pos B.E.npts f.elements) (h : Displaced B.M V s pos p pos')
    (t : ℝ) (a : Fin B.nn → Vec ℝ d.n) (U r : ℕ → ℝ) :
    evalKernel B.E B.E d.n d.n false true (B.pointFn V pos p f.elements (fun _ => Part.forceQf f t) a) f.elements U r =
      evalKernel B.E B.E d.n d.n false true ((B.placed pos').B.forceFn
        { elements := f.elements, value := fun t p => f.f (inside B.M.G B.M.conn pos' (f.elements.getD (p / B.E.npts) 0) (p % B.E.npts)).1 t } t) f.elements U r := by
  refine eval_congr hE _ _ _ _ (fun ee he Q hQ v g => ?_) U r
  unfold Part.pointFn Solid.Body.forceFn
  dsimp only [Part.placed]
  rw [(point_index hQ).1, (point_index hQ).2, point_moved _ _ _ _ _ (regular_inside hm hr (mem_of_zipIdx he) hQ), ← inside_moved hm h]
  unfold Part.forceQf
  rw [plain_source fun x i => -1 * f.f x.1 t i]
  have hz : flatM (0 : Mat ℝ d.n d.n) = fun _ _ => 0 := by
    funext i j
    unfold flatM
    split_ifs <;> rfl
  refine Prod.ext ?_ hz
  dsimp only
  rw [transpose_eq, det_eq, Matrix.det_transpose]
  rfl

theorem boundary_moved (hm : Meaning B.M V s) (hE : Rule B.EF) {l : Load d} (hr : RegularF B.M s pos B.EF.npts l.elements) (h : Displaced B.M V s pos p pos')
    (t : ℝ) (U r : ℕ → ℝ) :
    evalKernel B.EF B.EF d.n d.n false true (B.loadFn V pos p l t) l.elements U r =
      evalKernel B.EF B.EF d.n d.n false true ((B.placed pos').loadFn l t) l.elements U r := by
  refine eval_congr hE _ _ _ _ (fun ee he Q hQ v g => ?_) U r
  unfold Part.loadFn Loaded.loadFn
  dsimp only [Part.placed]
  rw [(point_index hQ).1, (point_index hQ).2, load_moved _ _ _ _ _ _ (regular_face hm hr (mem_of_zipIdx he) hQ), ← onFace_moved hm h]
  rfl

/-- **C79, solids.**  The residual with shape displacement `p` on the mesh at `pos` is the residual on the displaced mesh. -/
theorem C79_moved (hm : Meaning B.M V s) (hE : Rule B.E) (hF : Rule B.EF) (hr : AllRegular B s pos) (h : Displaced B.M V s pos p pos') (t : ℝ) (u a : Ode.Vec B.N) :
    B.residual V pos p t u a = (B.placed pos').residual t u a := by
  unfold Part.residual Loaded.residual Solid.Body.residual
  dsimp only
  rw [material_moved hm hE hr.material h]
  refine (foldl_congr B.loads (fun l hl r => by rw [boundary_moved hm hF (hr.loads l hl) h]) _).trans ?_
  rw [foldl_congr B.forces (fun f hf r => force_moved hm hE (hr.forces f hf) h t _ _ _)]
  dsimp only [Part.placed]
  rw [List.foldl_map]
  rfl

/-- The equations of a dynamic step with shape displacement are those of the displaced body: so are their solutions. -/
theorem C79_equations (hm : Meaning B.M V s) (hE : Rule B.E) (hF : Rule B.EF) (hr : AllRegular B s pos) (h : Displaced B.M V s pos p pos') :
    B.accResidual V pos p = (B.placed pos').accResidual := by
  funext fixed st a k
  unfold Part.accResidual Loaded.accResidual
  rw [C79_moved hm hE hF hr h]
  rfl

end Solids

/-! ## Shape displacements with the nodes of the mesh -/

section Nodes
variable {d : Dim}

/-- The shape displacement has the elements of the mesh, and node `σ n` of its space is node `n` of the mesh. -/
structure SameNodes (M : Mesh d) (V : Space) (s : Functions) (σ : Fin M.ng → Fin V.np) : Prop where
  ndof : V.W.ndof = M.G.ndof
  ndofF : V.WF.ndof = M.GF.ndof
  W : s.W = s.X
  dW : s.dW = s.dX
  WF : s.WF = s.XF
  dWF : s.dWF = s.dXF
  conn : ∀ e, ∀ a < M.G.ndof, V.conn e a = σ (M.conn e a)
  connF : ∀ e, ∀ a < M.GF.ndof, V.connF e a = σ (M.connF e a)

variable {M : Mesh d} {V : Space} {s : Functions} {σ : Fin M.ng → Fin V.np}

/-- Moving every node by the shape displacement there displaces the mesh. -/
theorem C79_nodes (h : SameNodes M V s σ) (pos : Fin M.ng → Vec ℝ d.n) (p : Fin V.np → Vec ℝ d.n) : Displaced M V s pos p fun n => pos n + p (σ n) := by
  constructor
  · intro e Q
    funext i
    simp only [value, h.W, h.ndof, Pi.add_apply]
    rw [← sum_add_distrib]
    exact sum_congr rfl fun a ha => by rw [h.conn e a (mem_range.1 ha), add_mul]
  · intro e Q
    ext i k
    simp only [deriv, h.dW, h.ndof, Matrix.add_apply]
    rw [← sum_add_distrib]
    exact sum_congr rfl fun a ha => by rw [h.conn e a (mem_range.1 ha), Pi.add_apply, add_mul]
  · intro e Q
    funext i
    simp only [value, h.WF, h.ndofF, Pi.add_apply]
    rw [← sum_add_distrib]
    exact sum_congr rfl fun a ha => by rw [h.connF e a (mem_range.1 ha), add_mul]
  · intro e Q
    ext i k
    simp only [deriv, h.dWF, h.ndofF, Matrix.add_apply]
    rw [← sum_add_distrib]
    exact sum_congr rfl fun a ha => by rw [h.connF e a (mem_range.1 ha), Pi.add_apply, add_mul]

end Nodes

section Consequences
variable {d : Dim} {B : Part d} {V : Space} {s : Functions} {σ : Fin B.M.ng → Fin V.np}

theorem shift {X Y : Type} [NormedAddCommGroup X] [NormedSpace ℝ X] [NormedAddCommGroup Y] [NormedSpace ℝ Y] {f g : X → Y} {D : X →L[ℝ] Y} {x p : X}
    (h : ∀ p, g p = f (x + p)) : HasFDerivAt g D p ↔ HasFDerivAt f D (x + p) := by
  obtain rfl : g = fun p => f (x + p) := funext h
  exact hasFDerivAt_comp_add_left x

/-- Without shape displacement nothing changes. -/
theorem C79_zero (hm : Meaning B.M V s) (hE : Rule B.E) (hF : Rule B.EF) {pos : B.Positions} (hr : AllRegular B s pos) (t : ℝ) (u a : Ode.Vec B.N) :
    B.residual V pos 0 t u a = (B.placed pos).residual t u a := by
  refine C79_moved hm hE hF hr ⟨?_, ?_, ?_, ?_⟩ t u a
  all_goals
    intro e Q
    ext
    simp [value, deriv]

/-- **C79, sensitivities.**  Derivatives with respect to the shape displacement are derivatives with respect to the positions of the nodes, at the displaced mesh. -/
theorem C79_sensitivity (hm : Meaning B.M V s) (hE : Rule B.E) (hF : Rule B.EF) {τ : B.M.ng = V.np} (hn : SameNodes B.M V s (Fin.cast τ)) {pos : B.Positions}
    (hr : AllRegular B s pos) (t : ℝ) (u a : Ode.Vec B.N) (D : (Fin B.M.ng → Fin d.n → ℝ) →L[ℝ] Fin B.N → ℝ) (p : Fin B.M.ng → Fin d.n → ℝ) :
    HasFDerivAt (fun p : Fin B.M.ng → Fin d.n → ℝ => B.residual V pos (fun n => p (Fin.cast τ.symm n)) t u a) D p ↔
      HasFDerivAt (fun x : Fin B.M.ng → Fin d.n → ℝ => (B.placed x).residual t u a) D (pos + p) :=
  shift fun p => C79_moved hm hE hF hr (C79_nodes hn pos _) t u a

/-- **C79, composition.**  Displacing by `p + q` is displacing the mesh by `p` and then by `q`. -/
theorem C79_compose (hm : Meaning B.M V s) (hE : Rule B.E) (hF : Rule B.EF) (hn : SameNodes B.M V s σ) {pos : B.Positions} (p q : Fin V.np → Vec ℝ d.n)
    (hr : AllRegular B s pos) (hr' : AllRegular B s fun n => pos n + p (σ n)) (t : ℝ) (u a : Ode.Vec B.N) :
    B.residual V pos (p + q) t u a = B.residual V (fun n => pos n + p (σ n)) q t u a := by
  have e : (fun n => pos n + (p + q) (σ n)) = fun n => pos n + p (σ n) + q (σ n) := by
    funext n
    rw [Pi.add_apply, add_assoc]
  have h1 := C79_moved hm hE hF hr (C79_nodes hn pos (p + q)) t u a
  rw [e] at h1
  exact h1.trans (C79_moved hm hE hF hr' (C79_nodes hn _ q) t u a).symm

end Consequences

/-! ## Heat -/

section HeatTransfer
variable {d : Dim} {C : Conductor d} {V : Space} {s : Functions} {pos pos' : C.Positions} {p : Fin V.np → Vec ℝ d.n}

structure AllRegularHeat (C : Conductor d) (s : Functions) (pos : C.Positions) : Prop where
  material : Regular C.M s pos C.E.npts C.elements
  sources : ∀ f ∈ C.sources, Regular C.M s pos C.E.npts f.elements
  fluxes : ∀ l ∈ C.fluxes, RegularF C.M s pos C.EF.npts l.elements

theorem plain_scalar (qf : Point d → ℝ → Vec ℝ d.n → ℝ → Option (ℝ × Vec ℝ d.n)) (X : Point d) (u a : Vec ℝ 1 × Mat ℝ 1 d.n) :
    plain (Conductor.scalar qf) X u a = Heat.heatPoint d (qf X) X.2 u a := by
  unfold plain Heat.heatPoint Conductor.scalar
  simp only [Option.bind_map]
  rfl

theorem integral_moved (hm : Meaning C.M V s) (hE : Rule C.E) {l : List ℕ} (hr : Regular C.M s pos C.E.npts l) (h : Displaced C.M V s pos p pos') (zf : Bool)
    (qf : ℕ → Point d → ℝ → Vec ℝ d.n → ℝ → Option (ℝ × Vec ℝ d.n)) (u a : Fin C.nn → ℝ) (r : ℕ → ℝ) :
    evalKernel C.E C.E 1 1 false zf (C.pointFn V pos p l (fun k => Conductor.scalar (qf k)) a) l (gatherE C.E.ndof C.conn fun n (_ : Fin 1) => u n) r =
      (C.placed pos').S.addIntegral zf l (fun k => qf k (C.pointOf pos' l k)) u a r := by
  refine eval_congr hE _ _ _ _ (fun ee he Q hQ v g => ?_) _ r
  unfold Conductor.pointFn Heat.Problem.pointFn Conductor.pointOf
  dsimp only [Conductor.placed]
  rw [(point_index hQ).1, (point_index hQ).2, point_moved _ _ _ _ _ (regular_inside hm hr (mem_of_zipIdx he) hQ), ← inside_moved hm h, plain_scalar]
  rfl

theorem flux_integral_moved (hm : Meaning C.M V s) (hE : Rule C.EF) {l : Heat.Flux d} (hr : RegularF C.M s pos C.EF.npts l.elements)
    (h : Displaced C.M V s pos p pos') (t : ℝ) (U r : ℕ → ℝ) :
    evalKernel C.EF C.EF 1 1 false true (C.fluxFn V pos p l t) l.elements U r =
      evalKernel C.EF C.EF 1 1 false true ((C.placed pos').fluxFn l t) l.elements U r := by
  refine eval_congr hE _ _ _ _ (fun ee he Q hQ v g => ?_) U r
  unfold Conductor.fluxFn Heat.Exchange.fluxFn
  dsimp only [Conductor.placed]
  rw [(point_index hQ).1, (point_index hQ).2, flux_moved _ _ _ _ _ (regular_face hm hr (mem_of_zipIdx he) hQ), ← onFace_moved hm h]
  rfl

/-- **C79, heat.** -/
theorem C79_heat (hm : Meaning C.M V s) (hE : Rule C.E) (hF : Rule C.EF) (hr : AllRegularHeat C s pos) (h : Displaced C.M V s pos p pos') (t : ℝ)
    (u a : Fin C.nn → ℝ) : C.residual V pos p t u a = (C.placed pos').residual t u a := by
  unfold Conductor.residual Heat.Exchange.residual Heat.Problem.residual
  dsimp only
  refine (foldl_congr C.fluxes (fun l hl r => by rw [flux_integral_moved hm hF (hr.fluxes l hl) h]) _).trans ?_
  have h1 := integral_moved hm hE hr.material h false (fun k x => Heat.thermalIntegrand (C.material k x)) u a fun _ => 0
  unfold Conductor.materialQf Conductor.sourceQf
  rw [h1]
  rw [foldl_congr C.sources (fun f hf r => integral_moved hm hE (hr.sources f hf) h true (fun _ x => Heat.sourceIntegrand (f.f x t)) u a r)]
  dsimp only [Conductor.placed]
  rw [List.foldl_map]
  rfl

theorem C79_heat_equations (hm : Meaning C.M V s) (hE : Rule C.E) (hF : Rule C.EF) (hr : AllRegularHeat C s pos) (h : Displaced C.M V s pos p pos') :
    C.rateResidual V pos p = (C.placed pos').rateResidual := by
  funext fixed st a k
  unfold Conductor.rateResidual Heat.Exchange.rateResidual
  rw [C79_heat hm hE hF hr h]
  rfl

theorem C79_heat_sensitivity (hm : Meaning C.M V s) (hE : Rule C.E) (hF : Rule C.EF) {τ : C.M.ng = V.np} (hn : SameNodes C.M V s (Fin.cast τ))
    (hr : AllRegularHeat C s pos) (t : ℝ) (u a : Fin C.nn → ℝ) (D : (Fin C.M.ng → Fin d.n → ℝ) →L[ℝ] Fin C.nn → ℝ) (p : Fin C.M.ng → Fin d.n → ℝ) :
    HasFDerivAt (fun p : Fin C.M.ng → Fin d.n → ℝ => C.residual V pos (fun n => p (Fin.cast τ.symm n)) t u a) D p ↔
      HasFDerivAt (fun x : Fin C.M.ng → Fin d.n → ℝ => (C.placed x).residual t u a) D (pos + p) :=
  shift fun p => C79_heat hm hE hF hr (C79_nodes hn pos _) t u a

end HeatTransfer

/-! ## Examples -/

/-- The square of four triangles around an inner node. -/
def exM : Mesh .two where
  G := simplex C72.tri3
  GF := segmentElem C75.exRule
  ng := 5
  conn := C71.exConn
  connF e a := Fin.ofNat 5 ((e + a) % 4)
  ne := 4
  nf := 4

/-- The space of the shape displacement numbers the nodes backwards. -/
def exV : Space where
  W := simplex C72.tri3
  WF := segmentElem C75.exRule
  np := 5
  conn e a := Fin.rev (C71.exConn e a)
  connF e a := Fin.rev (Fin.ofNat 5 ((e + a) % 4))

def exS : Functions where
  X Q a := C72.tri3.phi (C72.tri3.xi Q) a
  dX Q a k := C72.tri3.dphi (C72.tri3.xi Q) a k
  XF Q a := C75.exRule.N a (C75.exRule.pt Q)
  dXF Q a _ := C75.exRule.dN a (C75.exRule.pt Q)
  W Q a := C72.tri3.phi (C72.tri3.xi Q) a
  dW Q a k := C72.tri3.dphi (C72.tri3.xi Q) a k
  WF Q a := C75.exRule.N a (C75.exRule.pt Q)
  dWF Q a _ := C75.exRule.dN a (C75.exRule.pt Q)

theorem ex_meaning : Meaning exM exV exS :=
  ⟨(C51.C51_simplex C72.tri3).1, (C51.C51_segment C75.exRule).1, (C51.C51_simplex C72.tri3).1, (C51.C51_segment C75.exRule).1⟩

theorem ex_nodes : SameNodes exM exV exS Fin.rev := ⟨rfl, rfl, rfl, rfl, rfl, rfl, fun _ _ _ => rfl, fun _ _ _ => rfl⟩

theorem ex_rule : Rule (simplex C72.tri3) := ⟨_, _, _, (C51.C51_simplex C72.tri3).2⟩
theorem ex_ruleF : Rule (segmentElem C75.exRule) := ⟨_, _, _, (C51.C51_segment C75.exRule).2⟩

theorem ex_regular : Regular exM exS C71.exPos 3 [0, 1, 2, 3] := fun e he Q hQ =>
  (C72.ex_det [] (show e = 0 ∨ e = 1 ∨ e = 2 ∨ e = 3 by simpa using he) hQ).ne'

theorem ex_regularF (l : List ℕ) (h : ∀ e ∈ l, e < 4) : RegularF exM exS C71.exPos 1 l := fun e he Q hQ => (C75.ex_faces_good l h e he).2 Q hQ

/-- A finitely deforming elastic square under gravity that depends on the height, a traction and a pressure. -/
def exPart : Part .two where
  M := exM
  E := simplex C72.tri3
  EF := segmentElem C75.exRule
  nn := 5
  conn := C71.exConn
  connF e a := Fin.ofNat 5 ((e + a) % 4)
  N := 10
  num := (finProdFinEquiv : Fin 5 × Fin 2 ≃ Fin (5 * 2))
  elements := [0, 1, 2, 3]
  on := true
  density := 3
  material _ H := some (fun i j => H i j + H j i)
  forces := [⟨[0, 1, 2, 3], fun x t => ![0, t - x 1]⟩]
  loads := [C75.exTraction, C75.exPressure]

theorem ex_all : AllRegular exPart exS C71.exPos := by
  refine ⟨ex_regular, ?_, ?_⟩
  · intro f hf
    rw [List.mem_singleton.1 (show f ∈ [_] from hf)]
    exact ex_regular
  · intro l hl
    refine ex_regularF _ ?_
    rcases (show l = C75.exTraction ∨ l = C75.exPressure by simpa [exPart] using hl) with rfl | rfl <;> simp [C75.exTraction, C75.exPressure, Load.elements]

/-- Any shape displacement, any state. -/
example (p : Fin 5 → Fin 2 → ℝ) (t : ℝ) (u a : Fin 10 → ℝ) :
    exPart.residual exV C71.exPos p t u a = (exPart.placed fun n => C71.exPos n + p (Fin.rev n)).residual t u a :=
  C79_moved (B := exPart) ex_meaning ex_rule ex_ruleF ex_all (C79_nodes ex_nodes _ p) t u a

/-- The square with a source that depends on the position, and cooling. -/
def exConductor : Conductor .two where
  M := exM
  E := simplex C72.tri3
  EF := segmentElem C75.exRule
  nn := 5
  conn := C71.exConn
  connF e a := Fin.ofNat 5 ((e + a) % 4)
  elements := [0, 1, 2, 3]
  material _ x := ⟨1 + (show Fin 2 → ℝ from x.1) 0 ^ 2, fun _ g => some fun i => -2 * g i⟩
  sources := [⟨[0, 1, 2, 3], fun x t T _ => (show Fin 2 → ℝ from x.1) 1 * t - T⟩]
  fluxes := [C75.exCooling]

example (p : Fin 5 → Fin 2 → ℝ) (t : ℝ) (u a : Fin 5 → ℝ) :
    exConductor.residual exV C71.exPos p t u a = (exConductor.placed fun n => C71.exPos n + p (Fin.rev n)).residual t u a := by
  refine C79_heat (C := exConductor) ex_meaning ex_rule ex_ruleF ⟨ex_regular, ?_, ?_⟩ (C79_nodes ex_nodes _ p) t u a
  · intro f hf
    rw [List.mem_singleton.1 (show f ∈ [_] from hf)]
    exact ex_regular
  · intro l hl
    refine ex_regularF _ ?_
    rw [List.mem_singleton.1 (show l ∈ [_] from hl)]
    simp [C75.exCooling]

end Serac.C79
