import Verif.Model.AutoDiff
import Verif.Proofs.Transforms
import Verif.Props.C12
import Verif.Props.C51
/-!
# C104: the derivatives stored at the quadrature points are those of the user's function

Spec.  At a point with Jacobian `J` the user's function reads the values of its arguments and their gradients times `J⁻¹`; its source is multiplied by `det J` and its flux by
`J⁻ᵀ det J` (`specSource`, `specFlux`, with the plain expressions of C12).  Then

* the kernel computes exactly these numbers, whatever argument it differentiates by;
* the arrays it stores are the derivative of these numbers with respect to value and gradient of the chosen argument, each partial derivative at its place, and the
  blocks that its types declare `zero` are derivatives that vanish;
* with C51: the element matrix is the derivative of the element residual.
-/

namespace Serac.C104
open Serac.Num Serac.Kernels Serac.Transform Serac.AutoDiff Finset
open Serac.C12 (plain Good Rep C12_value C12_derivative)
open Serac.C51 (Trial Test IsDerivativeAt dSource dFlux e00 e01 e10 e11 derivative_at C51_matrix)

variable {A : ℕ} {m : Fin A → ℕ} {κ : Type} {c : ℕ}

/-! ### Spec -/

section
variable {n : ℕ}

/-- What the user's function reads. -/
noncomputable def reads (J : Matrix (Fin n) (Fin n) ℝ) (data : κ → ℝ) (u : Fin A → Field) : Input A m n κ → ℝ
  | .data k => data k
  | .val a j => (u a).1 j
  | .der a j l => ∑ k : Fin n, (u a).2 j k * J⁻¹ k l

noncomputable def specSource (f : QFun A m n κ c) (J : Matrix (Fin n) (Fin n) ℝ) (data : κ → ℝ) (u : Fin A → Field) (i : ℕ) : ℝ := match f.source with
  | none => 0
  | some s => if h : i < c then J.det * plain (reads J data u) (s ⟨i, h⟩) else 0

noncomputable def specFlux (f : QFun A m n κ c) (J : Matrix (Fin n) (Fin n) ℝ) (data : κ → ℝ) (u : Fin A → Field) (i l : ℕ) : ℝ := match f.flux with
  | none => 0
  | some s => if h : i < c ∧ l < n then J.det * ∑ k : Fin n, J⁻¹ ⟨l, h.2⟩ k * plain (reads J data u) (s ⟨i, h.1⟩ k) else 0

/-- Every operation of the user's function is applied where it is differentiable. -/
def GoodAt (f : QFun A m n κ c) (J : Matrix (Fin n) (Fin n) ℝ) (data : κ → ℝ) (u : Fin A → Field) : Prop :=
  (∀ s, f.source = some s → ∀ i, Good (reads J data u) (s i)) ∧ ∀ s, f.flux = some s → ∀ i k, Good (reads J data u) (s i k)

end

/-! ### Arithmetic of numbers and duals -/

theorem add_value (x y : Num Grad) : (ap2 .add x y).value = x.value + y.value := by
  cases x <;> cases y <;> rfl
theorem mul_value (x : Num Grad) (b : ℝ) : (ap2 .mul x (.dbl b)).value = x.value * b := by
  cases x <;> rfl
theorem add_gradient (x y : Num Grad) : (ap2 .add x y).gradient = x.gradient + y.gradient := by
  cases x <;> cases y <;> simp [ap2, Num.gradient, Dual.add, Dual.addL, Dual.addR]
theorem mul_gradient (x : Num Grad) (b : ℝ) : (ap2 .mul x (.dbl b)).gradient = b • x.gradient := by
  cases x <;> simp [ap2, Num.gradient, Dual.mulR]

theorem zeroOf_value (b : Bool) : (zeroOf b).value = 0 := by cases b <;> rfl
theorem zeroOf_gradient (b : Bool) : (zeroOf b).gradient = 0 := by cases b <;> rfl
theorem promote_value (b : Bool) (x : ℝ) (g : Grad) : (promote b x g).value = x := by cases b <;> rfl

theorem fold_value (n : ℕ) (X : Fin n → Num Grad) (b : Fin n → ℝ) (s : Num Grad) :
    (Fin.foldl n (fun s k => ap2 .add s (ap2 .mul (X k) (.dbl (b k)))) s).value = s.value + ∑ k, (X k).value * b k := by
  induction n with
  | zero => simp
  | succ n ih => rw [Fin.foldl_succ_last, add_value, mul_value, ih, Fin.sum_univ_castSucc, add_assoc]

theorem fold_gradient (n : ℕ) (X : Fin n → Num Grad) (b : Fin n → ℝ) (s : Num Grad) :
    (Fin.foldl n (fun s k => ap2 .add s (ap2 .mul (X k) (.dbl (b k)))) s).gradient = s.gradient + ∑ k, b k • (X k).gradient := by
  induction n with
  | zero => simp
  | succ n ih => rw [Fin.foldl_succ_last, add_gradient, mul_gradient, ih, Fin.sum_univ_castSucc, add_assoc]

theorem dotNum_value {n : ℕ} (b : Bool) (X : Fin n → Num Grad) (B : Tensor.Mat ℝ n n) (l : Fin n) :
    (dotNum b X B l).value = ∑ k, (X k).value * B k l := by
  rw [dotNum, fold_value n X fun k => B k l, zeroOf_value, zero_add]

theorem dotNum_gradient {n : ℕ} (b : Bool) (X : Fin n → Num Grad) (B : Tensor.Mat ℝ n n) (l : Fin n) :
    (dotNum b X B l).gradient = ∑ k, B k l • (X k).gradient := by
  rw [dotNum, fold_gradient n X fun k => B k l, zeroOf_gradient, zero_add]

/-! ### Values -/

theorem inputs_value {n : ℕ} (w : Option (Fin A)) (J : Matrix (Fin n) (Fin n) ℝ) (data : κ → ℝ) (u : Fin A → Field) :
    (fun i => (inputs (m := m) w J⁻¹ data u i).value) = reads J data u := by
  funext i
  cases i with
  | data k => rfl
  | val a j => exact promote_value _ _ _
  | der a j l => simp only [inputs, dotNum_value, promote_value, reads]

/-- What the loop body computes, when the Jacobian is invertible. -/
theorem evalPoint_eq (d : Dim) (jac : Tensor.Mat ℝ d.n d.n) (J : Matrix (Fin d.n) (Fin d.n) ℝ) (hj : jac = J.transpose) (hJ : J.det ≠ 0) (w : Option (Fin A))
    (f : QFun A m d.n κ c) (data : κ → ℝ) (u : Fin A → Field) :
    evalPoint d jac w f data u = some ⟨outSource f (inputs w J⁻¹ data u) J.det, outFlux f (f.fluxKind w).isSome (inputs w J⁻¹ data u) J.transpose⁻¹ J.det⟩ := by
  subst hj
  have h1 : inv d (fun row col => J.transpose col row) = some J⁻¹ := inv_eq d J hJ
  have h2 : inv d (fun row col => J.transpose row col) = some J.transpose⁻¹ := inv_eq d J.transpose (by rwa [Matrix.det_transpose])
  have h3 : Transform.det d (fun row col => J.transpose row col) = J.det := (det_eq d J.transpose).trans (Matrix.det_transpose _)
  unfold evalPoint
  simp only [h1, h2, h3, Option.bind_some, Option.map_some]

theorem outSource_value {n : ℕ} (f : QFun A m n κ c) (w : Option (Fin A)) (J : Matrix (Fin n) (Fin n) ℝ) (data : κ → ℝ) (u : Fin A → Field) (i : ℕ) :
    (outSource f (inputs w J⁻¹ data u) J.det i).value = specSource f J data u i := by
  unfold outSource specSource
  cases f.source with
  | none => rfl
  | some s =>
    dsimp only
    by_cases h : i < c
    · rw [dif_pos h, dif_pos h, mul_value, C12_value, inputs_value, mul_comm]
    · rw [dif_neg h, dif_neg h]; rfl

theorem outFlux_value {n : ℕ} (f : QFun A m n κ c) (b : Bool) (w : Option (Fin A)) (J : Matrix (Fin n) (Fin n) ℝ) (data : κ → ℝ) (u : Fin A → Field) (i l : ℕ) :
    (outFlux f b (inputs w J⁻¹ data u) J.transpose⁻¹ J.det i l).value = specFlux f J data u i l := by
  unfold outFlux specFlux
  cases f.flux with
  | none => rfl
  | some s =>
    dsimp only
    by_cases h : i < c ∧ l < n
    · rw [dif_pos h, dif_pos h, mul_value, dotNum_value, mul_comm]
      congr 1
      refine sum_congr rfl fun k _ => ?_
      rw [C12_value, inputs_value, ← Matrix.transpose_nonsing_inv, Matrix.transpose_apply, mul_comm]
    · rw [dif_neg h, dif_neg h]; rfl

/-- **C104, values.**  Source and flux at a point with Jacobian `J` are the user's, transformed, whichever argument is differentiated (or none). -/
theorem C104_value {d : Dim} (P : Points A d κ) (f : QFun A m d.n κ c) (w : Option (Fin A)) (a : Fin A) (p : ℕ) (J : Matrix (Fin d.n) (Fin d.n) ℝ)
    (hj : P.jac p = J.transpose) (hJ : J.det ≠ 0) (v : ℕ → ℝ) (g : ℕ → ℕ → ℝ) :
    pointFn P f w a p v g = (specSource f J (P.data p) (Function.update (P.args p) a (v, g)), specFlux f J (P.data p) (Function.update (P.args p) a (v, g))) := by
  unfold pointFn
  rw [evalPoint_eq d _ J hj hJ]
  refine Prod.ext (funext fun i => ?_) (funext fun i => funext fun l => ?_)
  · exact outSource_value f w J _ _ i
  · exact outFlux_value f _ w J _ _ i l

/-! ### Types -/

/-- Gradients allowed by a type. -/
def allowed (k : Kind) : Submodule ℝ Grad where
  carrier := {G | (Kind.hasValue k = false → G.1 = 0) ∧ (Kind.hasGrad k = false → G.2 = 0)}
  zero_mem' := ⟨fun _ => rfl, fun _ => rfl⟩
  add_mem' := by
    rintro x y ⟨hx, hx'⟩ ⟨hy, hy'⟩
    exact ⟨fun h => by simp [hx h, hy h], fun h => by simp [hx' h, hy' h]⟩
  smul_mem' := by
    rintro t x ⟨hx, hx'⟩
    exact ⟨fun h => by simp [hx h], fun h => by simp [hx' h]⟩

theorem allowed_left (a b : Kind) : allowed a ≤ allowed (join a b) := by
  rintro G ⟨h, h'⟩
  refine ⟨fun e => h ?_, fun e => h' ?_⟩ <;> revert e <;> cases a <;> cases b <;> simp +contextual [join, Kind.hasValue, Kind.hasGrad]

theorem allowed_right (a b : Kind) : allowed b ≤ allowed (join a b) := by
  rintro G ⟨h, h'⟩
  refine ⟨fun e => h ?_, fun e => h' ?_⟩ <;> revert e <;> cases a <;> cases b <;> simp +contextual [join, Kind.hasValue, Kind.hasGrad]

theorem allowed_all (c : ℕ) (k : Fin c → Kind) (s : Kind) : allowed s ≤ allowed (Fin.foldl c (fun s i => join s (k i)) s) ∧
    ∀ i, allowed (k i) ≤ allowed (Fin.foldl c (fun s i => join s (k i)) s) := by
  induction c with
  | zero => exact ⟨by simp, fun i => i.elim0⟩
  | succ c ih =>
    obtain ⟨h1, h2⟩ := ih fun i => k i.castSucc
    rw [Fin.foldl_succ_last]
    refine ⟨h1.trans (allowed_left _ _), fun i => ?_⟩
    induction i using Fin.lastCases with
    | last => exact allowed_right _ _
    | cast i => exact (h2 i).trans (allowed_left _ _)

theorem ap1_mem (S : Submodule ℝ Grad) (o : Op1) (x : Num Grad) (hx : x.gradient ∈ S) : (ap1 o x).gradient ∈ S := by
  cases x with
  | dbl x => exact S.zero_mem
  | dual d =>
    simp only [Num.gradient] at hx
    cases o <;> simp only [ap1, Num.gradient, Dual.neg, Dual.abs, Dual.sqrt, Dual.cos, Dual.sin, Dual.atan, Dual.asin, Dual.acos, Dual.exp, Dual.log, Dual.log1p] <;>
      repeat (first | exact hx | apply S.smul_mem | apply S.neg_mem | split)

theorem ap2_mem (S : Submodule ℝ Grad) (o : Op2) (x y : Num Grad) (hx : x.gradient ∈ S) (hy : y.gradient ∈ S) : (ap2 o x y).gradient ∈ S := by
  cases x with
  | dbl x =>
    cases y with
    | dbl y => exact S.zero_mem
    | dual e =>
      simp only [Num.gradient] at hy
      cases o <;> simp only [ap2, Num.gradient, Dual.addL, Dual.subL, Dual.mulL, Dual.divL, Dual.maxL, Dual.minL, Dual.atan2L, Dual.powL] <;>
        repeat (first | exact hy | apply S.smul_mem | apply S.neg_mem | split)
  | dual d =>
    simp only [Num.gradient] at hx
    cases y with
    | dbl y =>
      cases o <;> simp only [ap2, Num.gradient, Dual.addR, Dual.subR, Dual.mulR, Dual.divR, Dual.maxR, Dual.minR, Dual.atan2R, Dual.powR] <;>
        repeat (first | exact hx | apply S.smul_mem | apply S.neg_mem | split)
    | dual e =>
      simp only [Num.gradient] at hy
      cases o <;> simp only [ap2, Num.gradient, Dual.add, Dual.sub, Dual.mul, Dual.div, Dual.max, Dual.min, Dual.atan2, Dual.pow] <;>
        repeat (first | exact hx | exact hy | apply S.smul_mem | apply S.add_mem | apply S.sub_mem | apply S.neg_mem | split)

theorem inputs_mem {n : ℕ} (w : Option (Fin A)) (Ji : Tensor.Mat ℝ n n) (data : κ → ℝ) (u : Fin A → Field) (i : Input A m n κ) :
    (inputs w Ji data u i).gradient ∈ allowed (kindOf w i) := by
  cases i with
  | data k => exact Submodule.zero_mem _
  | val a j =>
    simp only [inputs, kindOf, promote]
    cases chosen w a
    · exact Submodule.zero_mem _
    · exact ⟨fun h => by simp [Kind.hasValue] at h, fun _ => rfl⟩
  | der a j l =>
    simp only [inputs, kindOf, dotNum_gradient]
    refine Submodule.sum_mem _ fun k _ => Submodule.smul_mem _ _ ?_
    unfold promote
    cases chosen w a
    · exact Submodule.zero_mem _
    · exact ⟨fun _ => rfl, fun h => by simp [Kind.hasGrad] at h⟩

theorem run_mem {n : ℕ} (w : Option (Fin A)) (Ji : Tensor.Mat ℝ n n) (data : κ → ℝ) (u : Fin A → Field) (e : Expr (Input A m n κ)) :
    (e.run (inputs w Ji data u)).gradient ∈ allowed (kind w e) := by
  induction e with
  | const c => exact Submodule.zero_mem _
  | var i => exact inputs_mem w Ji data u i
  | un o a ih => exact ap1_mem _ o _ ih
  | bin o a b iha ihb => exact ap2_mem _ o _ _ (allowed_left _ _ iha) (allowed_right _ _ ihb)

theorem outSource_mem {n : ℕ} (f : QFun A m n κ c) (w : Option (Fin A)) (Ji : Tensor.Mat ℝ n n) (dv : ℝ) (data : κ → ℝ) (u : Fin A → Field) (i : ℕ) :
    (outSource f (inputs w Ji data u) dv i).gradient ∈ allowed (f.sourceKind w) := by
  unfold outSource QFun.sourceKind
  cases f.source with
  | none => exact Submodule.zero_mem _
  | some s =>
    dsimp only
    split
    · rw [mul_gradient]
      exact Submodule.smul_mem _ _ ((allowed_all c (fun i => kind w (s i)) none).2 _ (run_mem w Ji data u _))
    · exact Submodule.zero_mem _

theorem outFlux_mem {n : ℕ} (f : QFun A m n κ c) (b : Bool) (w : Option (Fin A)) (Ji JTi : Tensor.Mat ℝ n n) (dv : ℝ) (data : κ → ℝ) (u : Fin A → Field) (i l : ℕ) :
    (outFlux f b (inputs w Ji data u) JTi dv i l).gradient ∈ allowed (f.fluxKind w) := by
  unfold outFlux QFun.fluxKind
  cases f.flux with
  | none => exact Submodule.zero_mem _
  | some s =>
    dsimp only
    split
    · rename_i h
      rw [mul_gradient, dotNum_gradient]
      refine Submodule.smul_mem _ _ (Submodule.sum_mem _ fun k _ => Submodule.smul_mem _ _ ?_)
      exact (allowed_all c (fun i => joinAll fun l => kind w (s i l)) none).2 ⟨i, h.1⟩
        ((allowed_all n (fun l => kind w (s ⟨i, h.1⟩ l)) none).2 k (run_mem w Ji data u _))
    · exact Submodule.zero_mem _

/-- **C104, types.**  Blocks declared `zero` hold nothing: no derivative is lost by not storing them. -/
theorem C104_shape {d : Dim} (P : Points A d κ) (f : QFun A m d.n κ c) (a : Fin A) (p : ℕ) (v : ℕ → ℝ) (g : ℕ → ℕ → ℝ) :
    ((f.shape (some a)).z00 = true → ∀ i j, (pointGrad P f a p v g).d00 i j = 0) ∧ ((f.shape (some a)).z01 = true → ∀ i j k, (pointGrad P f a p v g).d01 i j k = 0) ∧
    ((f.shape (some a)).z10 = true → ∀ i l j, (pointGrad P f a p v g).d10 i l j = 0) ∧ ((f.shape (some a)).z11 = true → ∀ i l j k, (pointGrad P f a p v g).d11 i l j k = 0) := by
  unfold pointGrad evalPoint
  dsimp only
  cases inv d (fun row col => P.jac p col row) with
  | none => exact ⟨fun _ _ _ => rfl, fun _ _ _ _ => rfl, fun _ _ _ _ => rfl, fun _ _ _ _ _ => rfl⟩
  | some Ji =>
    cases inv d (fun row col => P.jac p row col) with
    | none => exact ⟨fun _ _ _ => rfl, fun _ _ _ _ => rfl, fun _ _ _ _ => rfl, fun _ _ _ _ _ => rfl⟩
    | some JTi =>
      simp only [Option.bind_some, Option.map_some, Out.derivs, QFun.shape, Bool.not_eq_true']
      refine ⟨fun h i j => ?_, fun h i j k => ?_, fun h i l j => ?_, fun h i l j k => ?_⟩
      · rw [(outSource_mem f (some a) Ji _ _ _ i).1 h]; rfl
      · rw [(outSource_mem f (some a) Ji _ _ _ i).2 h]; rfl
      · rw [(outFlux_mem f _ (some a) Ji JTi _ _ _ i l).1 h]; rfl
      · rw [(outFlux_mem f _ (some a) Ji JTi _ _ _ i l).2 h]; rfl

/-! ### Derivatives -/

/-- A gradient applied to a direction. -/
noncomputable def pairing (m n : ℕ) (dv : ℕ → ℝ) (dg : ℕ → ℕ → ℝ) : Grad →ₗ[ℝ] (ℝ →L[ℝ] ℝ) where
  toFun G := (∑ j ∈ range m, (G.1 j * dv j + ∑ k ∈ range n, G.2 j k * dg j k)) • ContinuousLinearMap.id ℝ ℝ
  map_add' G H := by
    rw [← add_smul, ← sum_add_distrib]
    congr 1
    refine sum_congr rfl fun j _ => ?_
    simp only [Prod.fst_add, Prod.snd_add, Pi.add_apply, add_mul, sum_add_distrib]
    ring
  map_smul' t G := by
    rw [RingHom.id_apply, ← mul_smul]
    congr 1
    rw [mul_sum]
    refine sum_congr rfl fun j _ => ?_
    simp only [Prod.smul_fst, Prod.smul_snd, Pi.smul_apply, smul_eq_mul, mul_add, mul_sum]
    congr 1
    · ring
    · exact sum_congr rfl fun k _ => by ring

theorem pairing_hotValue (m n : ℕ) (dv : ℕ → ℝ) (dg : ℕ → ℕ → ℝ) (j : ℕ) (hj : j < m) : pairing m n dv dg (hotValue j) = dv j • ContinuousLinearMap.id ℝ ℝ := by
  simp [pairing, hotValue, hj]

theorem pairing_hotGrad (m n : ℕ) (dv : ℕ → ℝ) (dg : ℕ → ℕ → ℝ) (j k : ℕ) (hj : j < m) (hk : k < n) :
    pairing m n dv dg (hotGrad j k) = dg j k • ContinuousLinearMap.id ℝ ℝ := by
  have : ∀ x ∈ range m, ∑ y ∈ range n, (if x = j ∧ y = k then (1 : ℝ) else 0) * dg x y = if x = j then dg j k else 0 := by
    intro x _
    by_cases h : x = j
    · subst h; simp [hk]
    · simp [h]
  simp only [pairing, hotGrad, LinearMap.coe_mk, AddHom.coe_mk, zero_mul, zero_add]
  rw [sum_congr rfl this]
  simp [hj]

/-- The arguments along a line. -/
def line (u : Fin A → Field) (a : Fin A) (v : ℕ → ℝ) (g : ℕ → ℕ → ℝ) (dv : ℕ → ℝ) (dg : ℕ → ℕ → ℝ) (s : ℝ) : Fin A → Field :=
  Function.update u a (fun j => v j + s * dv j, fun j k => g j k + s * dg j k)

theorem line_zero (u : Fin A → Field) (a : Fin A) (v : ℕ → ℝ) (g : ℕ → ℕ → ℝ) (dv : ℕ → ℝ) (dg : ℕ → ℕ → ℝ) : line u a v g dv dg 0 = Function.update u a (v, g) := by
  simp [line]

theorem hasFDerivAt_line (x y : ℝ) : HasFDerivAt (fun s : ℝ => x + s * y) (y • ContinuousLinearMap.id ℝ ℝ) 0 := by
  have h := (((hasDerivAt_id (0 : ℝ)).mul_const y).const_add x).hasFDerivAt
  refine h.congr_fderiv ?_
  ext
  simp

theorem inputs_rep {n : ℕ} (J : Matrix (Fin n) (Fin n) ℝ) (data : κ → ℝ) (u : Fin A → Field) (a : Fin A) (v : ℕ → ℝ) (g : ℕ → ℕ → ℝ) (dv : ℕ → ℝ)
    (dg : ℕ → ℕ → ℝ) (i : Input A m n κ) :
    Rep (pairing (m a) n dv dg) 0 (inputs (some a) J⁻¹ data (Function.update u a (v, g)) i) fun s => reads J data (line u a v g dv dg s) i := by
  refine ⟨?_, ?_⟩
  · have h := congrFun (inputs_value (m := m) (some a) J data (Function.update u a (v, g))) i
    beta_reduce at h ⊢
    rw [h, line_zero]
  · cases i with
    | data k => simpa [inputs, reads, Num.gradient] using hasFDerivAt_const (data k) (0 : ℝ)
    | val b j =>
      by_cases h : b = a
      · subst h
        have e : ∀ s, reads J data (line u b v g dv dg s) (Input.val (m := m) b j) = v j + s * dv j := by intro s; simp [reads, line]
        simp only [e]
        have eg : (inputs (some b) J⁻¹ data (Function.update u b (v, g)) (Input.val (m := m) b j)).gradient = hotValue j := by simp [inputs, chosen, promote, Num.gradient]
        rw [eg, pairing_hotValue _ _ _ _ _ j.2]
        exact hasFDerivAt_line _ _
      · have e : ∀ s, reads J data (line u a v g dv dg s) (Input.val (m := m) b j) = (u b).1 j := by intro s; simp [reads, line, h]
        simp only [e]
        have eg : (inputs (some a) J⁻¹ data (Function.update u a (v, g)) (Input.val (m := m) b j)).gradient = 0 := by
          simp [inputs, chosen, promote, Num.gradient, Ne.symm h]
        rw [eg, map_zero]
        exact hasFDerivAt_const _ _
    | der b j l =>
      simp only [inputs, dotNum_gradient, reads, map_sum, map_smul]
      refine HasFDerivAt.fun_sum fun k _ => ?_
      by_cases h : b = a
      · subst h
        have e : ∀ s, (line u b v g dv dg s b).2 j k * J⁻¹ k l = J⁻¹ k l * (g j k + s * dg j k) := by intro s; simp [line, mul_comm]
        simp only [e]
        have eg : (promote (chosen (some b) b) ((Function.update u b (v, g) b).2 j k) (hotGrad j k)).gradient = hotGrad j k := by simp [chosen, promote, Num.gradient]
        rw [eg, pairing_hotGrad _ _ _ _ _ _ j.2 k.2]
        exact (hasFDerivAt_line (g j k) (dg j k)).const_mul _
      · have e : ∀ s, (line u a v g dv dg s b).2 j k * J⁻¹ k l = (u b).2 j k * J⁻¹ k l := by intro s; simp [line, h]
        simp only [e]
        have eg : (promote (chosen (some a) b) ((Function.update u a (v, g) b).2 j k) (hotGrad j k)).gradient = 0 := by simp [chosen, promote, Num.gradient, Ne.symm h]
        rw [eg, map_zero, smul_zero]
        exact hasFDerivAt_const _ _

theorem run_rep {n : ℕ} (J : Matrix (Fin n) (Fin n) ℝ) (data : κ → ℝ) (u : Fin A → Field) (a : Fin A) (v : ℕ → ℝ) (g : ℕ → ℕ → ℝ) (dv : ℕ → ℝ)
    (dg : ℕ → ℕ → ℝ) (e : Expr (Input A m n κ)) (hg : Good (reads J data (Function.update u a (v, g))) e) :
    HasFDerivAt (fun s => plain (reads J data (line u a v g dv dg s)) e)
      (pairing (m a) n dv dg (e.run (inputs (some a) J⁻¹ data (Function.update u a (v, g)))).gradient) 0 := by
  refine (C12_derivative (pairing (m a) n dv dg) 0 (fun i s => reads J data (line u a v g dv dg s) i) _ (inputs_rep J data u a v g dv dg) e ?_).2
  beta_reduce
  rw [line_zero]
  exact hg

/-- **C104, derivative.**  What is stored at a point is the derivative of the transformed source and flux with respect to value and gradient of the chosen argument. -/
theorem C104_derivative {d : Dim} (P : Points A d κ) (f : QFun A m d.n κ c) (w : Option (Fin A)) (a : Fin A) (p : ℕ) (J : Matrix (Fin d.n) (Fin d.n) ℝ)
    (hj : P.jac p = J.transpose) (hJ : J.det ≠ 0) (v : ℕ → ℝ) (g : ℕ → ℕ → ℝ) (hg : GoodAt f J (P.data p) (Function.update (P.args p) a (v, g)))
    (dimTest : ℕ) (hdt : dimTest = d.n ∨ f.flux = none) :
    IsDerivativeAt (pointFn P f w a) (pointGrad P f a) f.source.isNone f.flux.isNone (f.shape (some a)) c (m a) dimTest d.n p v g := by
  intro dv dg
  have hz := C104_shape P f a p v g
  have hG : pointGrad P f a p v g = Out.derivs ⟨outSource f (inputs (some a) J⁻¹ (P.data p) (Function.update (P.args p) a (v, g))) J.det,
      outFlux f (f.fluxKind (some a)).isSome (inputs (some a) J⁻¹ (P.data p) (Function.update (P.args p) a (v, g))) J.transpose⁻¹ J.det⟩ := by
    unfold pointGrad
    rw [evalPoint_eq d _ J hj hJ]
  have h00 : ∀ i j, e00 (f.shape (some a)) (pointGrad P f a p v g) i j = (pointGrad P f a p v g).d00 i j := by
    intro i j; unfold e00; split
    · rename_i h; rw [hz.1 h]
    · rfl
  have h01 : ∀ i j k, e01 (f.shape (some a)) (pointGrad P f a p v g) i j k = (pointGrad P f a p v g).d01 i j k := by
    intro i j k; unfold e01; split
    · rename_i h; rw [hz.2.1 h]
    · rfl
  have h10 : ∀ i l j, e10 (f.shape (some a)) (pointGrad P f a p v g) i l j = (pointGrad P f a p v g).d10 i l j := by
    intro i l j; unfold e10; split
    · rename_i h; rw [hz.2.2.1 h]
    · rfl
  have h11 : ∀ i l j k, e11 (f.shape (some a)) (pointGrad P f a p v g) i l j k = (pointGrad P f a p v g).d11 i l j k := by
    intro i l j k; unfold e11; split
    · rename_i h; rw [hz.2.2.2 h]
    · rfl
  set x := inputs (m := m) (some a) J⁻¹ (P.data p) (Function.update (P.args p) a (v, g)) with hx
  have hS : ∀ i, dSource (f.shape (some a)) (m a) d.n (pointGrad P f a p v g) dv dg i = pairing (m a) d.n dv dg (outSource f x J.det i).gradient 1 := by
    intro i; simp only [dSource, h00, h01]; rw [hG]; simp [pairing, Out.derivs]
  have hF : ∀ i l, dFlux (f.shape (some a)) (m a) d.n (pointGrad P f a p v g) dv dg i l =
      pairing (m a) d.n dv dg (outFlux f (f.fluxKind (some a)).isSome x J.transpose⁻¹ J.det i l).gradient 1 := by
    intro i l; simp only [dFlux, h10, h11]; rw [hG]; simp [pairing, Out.derivs]
  constructor
  · intro i hi
    rw [hS]
    simp only [C104_value P f w a p J hj hJ]
    refine HasFDerivAt.hasDerivAt ?_
    cases hs : f.source with
    | none =>
      simp only [outSource, hs, Num.gradient, map_zero, Option.isNone_none, if_true]
      exact hasFDerivAt_const _ _
    | some s =>
      simp only [Option.isNone_some, Bool.false_eq_true, if_false, specSource, outSource, hs, hi, dif_pos, mul_gradient, map_smul]
      exact (run_rep J (P.data p) (P.args p) a v g dv dg _ (hg.1 s hs ⟨i, hi⟩)).const_mul J.det
  · intro i hi l hl
    rw [hF]
    simp only [C104_value P f w a p J hj hJ]
    refine HasFDerivAt.hasDerivAt ?_
    cases hs : f.flux with
    | none =>
      simp only [outFlux, hs, Num.gradient, map_zero, Option.isNone_none, if_true]
      exact hasFDerivAt_const _ _
    | some s =>
      have hl : l < d.n := by
        rcases hdt with e | e
        · rwa [e] at hl
        · rw [hs] at e; cases e
      simp only [Option.isNone_some, Bool.false_eq_true, if_false, specFlux, outFlux, hs, hi, hl, and_self, dif_pos, mul_gradient, dotNum_gradient, map_smul, map_sum,
        ← Matrix.transpose_nonsing_inv, Matrix.transpose_apply]
      exact (HasFDerivAt.fun_sum fun k _ => (run_rep J (P.data p) (P.args p) a v g dv dg _ (hg.2 s hs ⟨i, hi⟩ k)).const_mul (J⁻¹ ⟨l, hl⟩ k)).const_mul J.det

/-- **C104, entries.**  Entry by entry: the stored numbers are the partial derivatives of the transformed source and flux. -/
theorem C104_entries {d : Dim} (P : Points A d κ) (f : QFun A m d.n κ c) (a : Fin A) (p : ℕ) (J : Matrix (Fin d.n) (Fin d.n) ℝ)
    (hj : P.jac p = J.transpose) (hJ : J.det ≠ 0) (v : ℕ → ℝ) (g : ℕ → ℕ → ℝ) (hg : GoodAt f J (P.data p) (Function.update (P.args p) a (v, g)))
    (i : ℕ) (hi : i < c) (l : ℕ) (hl : l < d.n) (j : ℕ) (hjm : j < m a) (k : ℕ) (hk : k < d.n) :
    HasDerivAt (fun s => specSource f J (P.data p) (Function.update (P.args p) a (Function.update v j s, g)) i) ((pointGrad P f a p v g).d00 i j) (v j) ∧
    HasDerivAt (fun s => specSource f J (P.data p) (Function.update (P.args p) a (v, Function.update g j (Function.update (g j) k s))) i)
      ((pointGrad P f a p v g).d01 i j k) (g j k) ∧
    HasDerivAt (fun s => specFlux f J (P.data p) (Function.update (P.args p) a (Function.update v j s, g)) i l) ((pointGrad P f a p v g).d10 i l j) (v j) ∧
    HasDerivAt (fun s => specFlux f J (P.data p) (Function.update (P.args p) a (v, Function.update g j (Function.update (g j) k s))) i l)
      ((pointGrad P f a p v g).d11 i l j k) (g j k) := by
  have hD := C104_derivative P f (some a) a p J hj hJ v g hg d.n (Or.inl rfl)
  have hz := C104_shape P f a p v g
  -- along the line through `t`
  have shift : ∀ (F : ℝ → ℝ) (t D : ℝ), HasDerivAt (fun s => F (t + s)) D 0 → HasDerivAt F D t := by
    intro F t D h
    have h2 := HasDerivAt.comp_sub_const t t (f := fun s => F (t + s)) (by rwa [sub_self])
    simpa using h2
  have hv : ∀ s : ℝ, (fun j' => v j' + s * (if j' = j then 1 else 0)) = Function.update v j (v j + s) := by
    intro s; funext j'
    by_cases e : j' = j
    · subst e; simp
    · simp [e]
  have hgr : ∀ s : ℝ, (fun j' k' => g j' k' + s * (if j' = j ∧ k' = k then 1 else 0)) = Function.update g j (Function.update (g j) k (g j k + s)) := by
    intro s; funext j' k'
    by_cases e : j' = j
    · subst e
      by_cases e' : k' = k
      · subst e'; simp
      · simp [e']
    · simp [e]
  have d1 := hD (fun j' => if j' = j then 1 else 0) (fun _ _ => 0)
  have d2 := hD (fun _ => 0) (fun j' k' => if j' = j ∧ k' = k then 1 else 0)
  simp only [C104_value P f (some a) a p J hj hJ, hv, hgr, mul_zero, add_zero] at d1 d2
  have s1 : dSource (f.shape (some a)) (m a) d.n (pointGrad P f a p v g) (fun j' => if j' = j then 1 else 0) (fun _ _ => 0) i = (pointGrad P f a p v g).d00 i j := by
    simp only [dSource, mul_zero, sum_const_zero, add_zero, mul_ite, mul_one, sum_ite_eq', mem_range, hjm, if_true, e00]
    split
    · rename_i e; rw [hz.1 e]
    · rfl
  have s2 : dSource (f.shape (some a)) (m a) d.n (pointGrad P f a p v g) (fun _ => 0) (fun j' k' => if j' = j ∧ k' = k then 1 else 0) i = (pointGrad P f a p v g).d01 i j k := by
    simp only [dSource, mul_zero, zero_add, ite_and, mul_ite, mul_one, sum_ite_irrel, sum_const_zero, sum_ite_eq', mem_range, hjm, hk, if_true, e01]
    split
    · rename_i e; rw [hz.2.1 e]
    · rfl
  have s3 : dFlux (f.shape (some a)) (m a) d.n (pointGrad P f a p v g) (fun j' => if j' = j then 1 else 0) (fun _ _ => 0) i l = (pointGrad P f a p v g).d10 i l j := by
    simp only [dFlux, mul_zero, sum_const_zero, add_zero, mul_ite, mul_one, sum_ite_eq', mem_range, hjm, if_true, e10]
    split
    · rename_i e; rw [hz.2.2.1 e]
    · rfl
  have s4 : dFlux (f.shape (some a)) (m a) d.n (pointGrad P f a p v g) (fun _ => 0) (fun j' k' => if j' = j ∧ k' = k then 1 else 0) i l = (pointGrad P f a p v g).d11 i l j k := by
    simp only [dFlux, mul_zero, zero_add, ite_and, mul_ite, mul_one, sum_ite_irrel, sum_const_zero, sum_ite_eq', mem_range, hjm, hk, if_true, e11]
    split
    · rename_i e; rw [hz.2.2.2 e]
    · rfl
  have zs : ∀ (b : Fin A → Field), (if f.source.isNone = true then 0 else specSource f J (P.data p) b i) = specSource f J (P.data p) b i := by
    intro b; cases hs : f.source <;> simp [specSource, hs]
  have zf : ∀ (b : Fin A → Field), (if f.flux.isNone = true then 0 else specFlux f J (P.data p) b i l) = specFlux f J (P.data p) b i l := by
    intro b; cases hs : f.flux <;> simp [specFlux, hs]
  have r1 := d1.1 i hi
  have r2 := d2.1 i hi
  have r3 := d1.2 i hi l hl
  have r4 := d2.2 i hi l hl
  simp only [zs, zf, s1, s2, s3, s4] at r1 r2 r3 r4
  exact ⟨shift _ _ _ r1, shift _ _ _ r2, shift _ _ _ r3, shift _ _ _ r4⟩

/-- **C104, element matrix.**  Evaluate the residual with derivatives by argument `a`; the element matrix assembled from what was stored is the derivative of the element
residual with respect to that argument's element vector.  Functions without flux may be tested with anything, also with the single test function of a quantity of interest.
The Jacobians are invertible and the user's function is differentiable at the points and states that occur. -/
theorem C104_jacobian {d : Dim} (P : Points A d κ) (f : QFun A m d.n κ c) (w : Option (Fin A)) (a : Fin A) (J : ℕ → Matrix (Fin d.n) (Fin d.n) ℝ)
    (hj : ∀ p, P.jac p = (J p).transpose) {test trial : Elem ℝ} {phi dphi wt phi' dphi'} (h : Test test phi dphi wt) (h' : Trial trial phi' dphi') (hc : 0 < c)
    (hpos : 0 < test.dim) (hd : test.dim = d.n ∨ f.flux = none) (hd' : trial.dim = d.n) (elements : List ℕ) (U dU r : ℕ → ℝ) (old : Buffer ℝ)
    (hg : ∀ ee ∈ elements.zipIdx, ∀ Q < test.npts, (J (ee.2 * test.npts + Q)).det ≠ 0 ∧
      GoodAt f (J (ee.2 * test.npts + Q)) (P.data (ee.2 * test.npts + Q)) (Function.update (P.args (ee.2 * test.npts + Q)) a
        ((interpolate trial fun p => U (ee.1 * (m a * trial.ndof) + p)).value Q, (interpolate trial fun p => U (ee.1 * (m a * trial.ndof) + p)).grad Q)))
    (el t : ℕ) (ht : t < c * test.ndof) :
    HasDerivAt (fun s : ℝ => evalKernel test trial c (m a) f.source.isNone f.flux.isNone (pointFn P f w a) elements (fun p => U p + s * dU p) r (el * (c * test.ndof) + t))
      (∑ b ∈ range (m a * trial.ndof), gradientKernel test trial c (m a) (f.shape (some a)) (evalDerivs test.npts trial (m a) (pointGrad P f a) elements U old) elements
        (fun _ => 0) ((el * (m a * trial.ndof) + b) * (c * test.ndof) + t) * dU (el * (m a * trial.ndof) + b)) 0 := by
  have hdim : test.dim = trial.dim ∨ ((f.shape (some a)).z10 && (f.shape (some a)).z11) = true := by
    rcases hd with e | e
    · exact Or.inl (e.trans hd'.symm)
    · exact Or.inr (by simp [QFun.shape, QFun.fluxKind, e, Kind.hasValue, Kind.hasGrad])
  have h1 := derivative_at h h' c (m a) hc hpos f.source.isNone f.flux.isNone (f.shape (some a)) hdim (pointFn P f w a) (pointGrad P f a) elements U dU r
    (fun ee hee Q hQ => by rw [hd']; exact C104_derivative P f w a _ _ (hj _) (hg ee hee Q hQ).1 _ _ (hg ee hee Q hQ).2 _ hd) old el t ht
  have hm := C51_matrix h h' c (m a) hc hpos (f.shape (some a)) hdim (evalDerivs test.npts trial (m a) (pointGrad P f a) elements U old) elements dU (fun _ => 0)
    (fun _ => 0) el t ht
  simp only [sub_zero] at hm
  rwa [hm] at h1

/-! ### Boundary integrals -/

section
variable {n : ℕ}

/-- Spec: what the user's function reads on a face. -/
def faceReads (data : κ → ℝ) (u : Fin A → Field) : Input A m n κ → ℝ
  | .data k => data k
  | .val a j => (u a).1 j
  | .der a j k => (u a).2 j k

theorem faceInputs_value (w : Option (Fin A)) (data : κ → ℝ) (u : Fin A → Field) : (fun i => (faceInputs (m := m) (n := n) w data u i).value) = faceReads data u := by
  funext i
  cases i with
  | data k => rfl
  | val a j => exact promote_value _ _ _
  | der a j k => exact promote_value _ _ _

theorem faceInputs_mem (w : Option (Fin A)) (data : κ → ℝ) (u : Fin A → Field) (i : Input A m n κ) : (faceInputs w data u i).gradient ∈ allowed (kindOf w i) := by
  cases i with
  | data k => exact Submodule.zero_mem _
  | val a j =>
    simp only [faceInputs, kindOf, promote]
    cases chosen w a
    · exact Submodule.zero_mem _
    · exact ⟨fun h => by simp [Kind.hasValue] at h, fun _ => rfl⟩
  | der a j k =>
    simp only [faceInputs, kindOf, promote]
    cases chosen w a
    · exact Submodule.zero_mem _
    · exact ⟨fun _ => rfl, fun h => by simp [Kind.hasGrad] at h⟩

theorem faceRun_mem (w : Option (Fin A)) (data : κ → ℝ) (u : Fin A → Field) (e : Expr (Input A m n κ)) : (e.run (faceInputs w data u)).gradient ∈ allowed (kind w e) := by
  induction e with
  | const c => exact Submodule.zero_mem _
  | var i => exact faceInputs_mem w data u i
  | un o a ih => exact ap1_mem _ o _ ih
  | bin o a b iha ihb => exact ap2_mem _ o _ _ (allowed_left _ _ iha) (allowed_right _ _ ihb)

theorem faceInputs_rep (data : κ → ℝ) (u : Fin A → Field) (a : Fin A) (v : ℕ → ℝ) (g : ℕ → ℕ → ℝ) (dv : ℕ → ℝ) (dg : ℕ → ℕ → ℝ) (i : Input A m n κ) :
    Rep (pairing (m a) n dv dg) 0 (faceInputs (some a) data (Function.update u a (v, g)) i) fun s => faceReads data (line u a v g dv dg s) i := by
  refine ⟨?_, ?_⟩
  · have h := congrFun (faceInputs_value (m := m) (n := n) (some a) data (Function.update u a (v, g))) i
    beta_reduce at h ⊢
    rw [h, line_zero]
  · cases i with
    | data k => simpa [faceInputs, faceReads, Num.gradient] using hasFDerivAt_const (data k) (0 : ℝ)
    | val b j =>
      by_cases h : b = a
      · subst h
        have e : ∀ s, faceReads data (line u b v g dv dg s) (Input.val (m := m) (n := n) b j) = v j + s * dv j := by intro s; simp [faceReads, line]
        simp only [e]
        have eg : (faceInputs (some b) data (Function.update u b (v, g)) (Input.val (m := m) (n := n) b j)).gradient = hotValue j := by simp [faceInputs, chosen, promote, Num.gradient]
        rw [eg, pairing_hotValue _ _ _ _ _ j.2]
        exact hasFDerivAt_line _ _
      · have e : ∀ s, faceReads data (line u a v g dv dg s) (Input.val (m := m) (n := n) b j) = (u b).1 j := by intro s; simp [faceReads, line, h]
        simp only [e]
        have eg : (faceInputs (some a) data (Function.update u a (v, g)) (Input.val (m := m) (n := n) b j)).gradient = 0 := by
          simp [faceInputs, chosen, promote, Num.gradient, Ne.symm h]
        rw [eg, map_zero]
        exact hasFDerivAt_const _ _
    | der b j k =>
      by_cases h : b = a
      · subst h
        have e : ∀ s, faceReads data (line u b v g dv dg s) (Input.der (m := m) b j k) = g j k + s * dg j k := by intro s; simp [faceReads, line]
        simp only [e]
        have eg : (faceInputs (some b) data (Function.update u b (v, g)) (Input.der (m := m) b j k)).gradient = hotGrad j k := by simp [faceInputs, chosen, promote, Num.gradient]
        rw [eg, pairing_hotGrad _ _ _ _ _ _ j.2 k.2]
        exact hasFDerivAt_line _ _
      · have e : ∀ s, faceReads data (line u a v g dv dg s) (Input.der (m := m) b j k) = (u b).2 j k := by intro s; simp [faceReads, line, h]
        simp only [e]
        have eg : (faceInputs (some a) data (Function.update u a (v, g)) (Input.der (m := m) b j k)).gradient = 0 := by
          simp [faceInputs, chosen, promote, Num.gradient, Ne.symm h]
        rw [eg, map_zero]
        exact hasFDerivAt_const _ _

end

/-- **C104, values on faces**: the user's function times the area of the face. -/
theorem C104_face_value {d : Dim} (P : FacePoints A d κ) (f : Fin c → Expr (Input A m (faceDim d) κ)) (w : Option (Fin A)) (a : Fin A) (p : ℕ) (v : ℕ → ℝ) (g : ℕ → ℕ → ℝ)
    (i : ℕ) (hi : i < c) : (facePointFn P f w a p v g).1 i = area d (P.jac p) * plain (faceReads (P.data p) (Function.update (P.args p) a (v, g))) (f ⟨i, hi⟩) := by
  simp only [facePointFn, Out.values, faceOut, hi, dif_pos, mul_value, C12_value, faceInputs_value]
  rw [mul_comm]

/-- **C104, derivative on faces.**  What the boundary kernel stores is the derivative; nothing is lost in blocks typed `zero`. -/
theorem C104_face_derivative {d : Dim} (P : FacePoints A d κ) (f : Fin c → Expr (Input A m (faceDim d) κ)) (w : Option (Fin A)) (a : Fin A) (p : ℕ) (v : ℕ → ℝ)
    (g : ℕ → ℕ → ℝ) (hg : ∀ i, Good (faceReads (P.data p) (Function.update (P.args p) a (v, g))) (f i)) (dimTest : ℕ) :
    IsDerivativeAt (facePointFn P f w a) (facePointGrad P f a) false true (faceShape (some a) f) c (m a) dimTest (faceDim d) p v g := by
  intro dv dg
  have hmem : ∀ i, ((faceOut P f (some a) a p v g).source i).gradient ∈ allowed (joinAll fun i => kind (some a) (f i)) := by
    intro i
    simp only [faceOut]
    split
    · rw [mul_gradient]
      exact Submodule.smul_mem _ _ ((allowed_all c (fun i => kind (some a) (f i)) none).2 _ (faceRun_mem (some a) _ _ _))
    · exact Submodule.zero_mem _
  constructor
  · intro i hi
    have hS : dSource (faceShape (some a) f) (m a) (faceDim d) (facePointGrad P f a p v g) dv dg i =
        pairing (m a) (faceDim d) dv dg ((faceOut P f (some a) a p v g).source i).gradient 1 := by
      have h00 : ∀ j, e00 (faceShape (some a) f) (facePointGrad P f a p v g) i j = ((faceOut P f (some a) a p v g).source i).gradient.1 j := by
        intro j; unfold e00 faceShape; split
        · rename_i h
          rw [(hmem i).1 (by simpa using h)]; rfl
        · rfl
      have h01 : ∀ j k, e01 (faceShape (some a) f) (facePointGrad P f a p v g) i j k = ((faceOut P f (some a) a p v g).source i).gradient.2 j k := by
        intro j k; unfold e01 faceShape; split
        · rename_i h
          rw [(hmem i).2 (by simpa using h)]; rfl
        · rfl
      simp [dSource, h00, h01, pairing]
    rw [hS]
    simp only [C104_face_value P f w a p _ _ i hi, Bool.false_eq_true, if_false]
    refine HasFDerivAt.hasDerivAt ?_
    simp only [faceOut, hi, dif_pos, mul_gradient, map_smul]
    refine HasFDerivAt.const_mul ?_ _
    refine (C12_derivative (pairing (m a) (faceDim d) dv dg) 0 (fun i s => faceReads (P.data p) (line (P.args p) a v g dv dg s) i) _
      (faceInputs_rep (P.data p) (P.args p) a v g dv dg) (f ⟨i, hi⟩) ?_).2
    beta_reduce
    rw [line_zero]
    exact hg ⟨i, hi⟩
  · intro i _ l _
    have hF : dFlux (faceShape (some a) f) (m a) (faceDim d) (facePointGrad P f a p v g) dv dg i l = 0 := by simp [dFlux, e10, e11, faceShape]
    rw [hF]
    simpa using hasDerivAt_const (0 : ℝ) (0 : ℝ)

/-- **C104, face matrix**: the derivative of the face residual with respect to the chosen argument. -/
theorem C104_face_jacobian {d : Dim} (P : FacePoints A d κ) (f : Fin c → Expr (Input A m (faceDim d) κ)) (w : Option (Fin A)) (a : Fin A)
    {test trial : Elem ℝ} {phi dphi wt phi' dphi'} (h : Test test phi dphi wt) (h' : Trial trial phi' dphi') (hc : 0 < c)
    (hpos : 0 < test.dim) (hd' : trial.dim = faceDim d) (elements : List ℕ) (U dU r : ℕ → ℝ) (old : Buffer ℝ)
    (hg : ∀ ee ∈ elements.zipIdx, ∀ Q < test.npts, ∀ i, Good (faceReads (P.data (ee.2 * test.npts + Q)) (Function.update (P.args (ee.2 * test.npts + Q)) a
        ((interpolate trial fun p => U (ee.1 * (m a * trial.ndof) + p)).value Q, (interpolate trial fun p => U (ee.1 * (m a * trial.ndof) + p)).grad Q))) (f i))
    (el t : ℕ) (ht : t < c * test.ndof) :
    HasDerivAt (fun s : ℝ => evalKernel test trial c (m a) false true (facePointFn P f w a) elements (fun p => U p + s * dU p) r (el * (c * test.ndof) + t))
      (∑ b ∈ range (m a * trial.ndof), gradientKernel test trial c (m a) (faceShape (some a) f) (evalDerivs test.npts trial (m a) (facePointGrad P f a) elements U old) elements
        (fun _ => 0) ((el * (m a * trial.ndof) + b) * (c * test.ndof) + t) * dU (el * (m a * trial.ndof) + b)) 0 := by
  have hdim : test.dim = trial.dim ∨ ((faceShape (some a) f).z10 && (faceShape (some a) f).z11) = true := Or.inr (by simp [faceShape])
  have h1 := derivative_at h h' c (m a) hc hpos false true (faceShape (some a) f) hdim (facePointFn P f w a) (facePointGrad P f a) elements U dU r
    (fun ee hee Q hQ => by rw [hd']; exact C104_face_derivative P f w a _ _ _ (hg ee hee Q hQ) _) old el t ht
  have hm := C51_matrix h h' c (m a) hc hpos (faceShape (some a) f) hdim (evalDerivs test.npts trial (m a) (facePointGrad P f a) elements U old) elements dU (fun _ => 0)
    (fun _ => 0) el t ht
  simp only [sub_zero] at hm
  rwa [hm] at h1

/-! ### Example: heat conduction `κ (1 + T²) ∇T` with a reaction `κ T`, temperature and conductivity both trial arguments, on a skewed triangle -/

abbrev ExIn := Input 2 (fun _ => 1) 2 Empty
def exT : Expr ExIn := .var (.val 0 0)
def exK : Expr ExIn := .var (.val 1 0)
def exQ : QFun 2 (fun _ => 1) 2 Empty 1 where
  source := some fun _ => .bin .mul exK exT
  flux := some fun _ l => .bin .mul (.bin .mul exK (.bin .add (.const 1) (.bin .mul exT exT))) (.var (.der 0 0 l))

def exJ : Matrix (Fin 2) (Fin 2) ℝ := !![2, 1; 0, 1]
def exPoints : Points 2 .two Empty where
  jac _ := exJ.transpose
  data _ := Empty.elim
  args _ a := (fun _ => if a = 0 then 2 else 3, fun _ k => if k = 0 then 1 else 4)

theorem exJ_det : exJ.det = 2 := by simp [exJ, Matrix.det_fin_two]
theorem exJ_inv : exJ⁻¹ = !![1 / 2, -1 / 2; 0, 1] := by
  refine Matrix.inv_eq_right_inv ?_
  ext i j
  fin_cases i <;> fin_cases j <;> simp [exJ, Matrix.mul_apply, Fin.sum_univ_two] <;> norm_num

theorem exGood (J : Matrix (Fin 2) (Fin 2) ℝ) (data : Empty → ℝ) (u : Fin 2 → Field) : GoodAt exQ J data u := by
  refine ⟨fun s hs i => ?_, fun s hs i k => ?_⟩
  · obtain rfl := Option.some.inj hs; simp [Good, C12.Good2, exK, exT]
  · obtain rfl := Option.some.inj hs; simp [Good, C12.Good2, exK, exT]

/-- The types: by the temperature, the source has no derivative with respect to the gradient; by the conductivity, nothing depends on the gradient. -/
example : exQ.shape (some 0) = ⟨false, true, false, false⟩ ∧ exQ.shape (some 1) = ⟨false, true, false, true⟩ ∧ exQ.shape none = ⟨true, true, true, true⟩ := by
  refine ⟨?_, ?_, ?_⟩ <;>
    simp [QFun.shape, QFun.sourceKind, QFun.fluxKind, exQ, exK, exT, joinAll, Fin.foldl_succ_last, kind, kindOf, chosen, join, Kind.hasValue, Kind.hasGrad]

/-- At `T = 2`, `κ = 3` the stored derivative of the first flux by the first parent derivative of the temperature is `15 (1/2 + 1/2)`, and that of the source by the
conductivity is `2 det J`. -/
example : (pointGrad (d := .two) exPoints exQ 0 7 (fun _ => 2) fun _ k => if k = 0 then 1 else 4).d11 0 0 0 0 = 15 ∧
    (pointGrad (d := .two) exPoints exQ 1 7 (fun _ => 3) fun _ k => if k = 0 then 1 else 4).d00 0 0 = 4 := by
  have hdet : exJ.det ≠ 0 := by rw [exJ_det]; norm_num
  have h := (C104_entries (d := .two) exPoints exQ 0 7 exJ rfl hdet (fun _ => 2) (fun _ k => if k = 0 then 1 else 4) (exGood _ _ _) 0 one_pos 0 (by norm_num) 0 one_pos 0
    (by norm_num)).2.2.2
  have h' := (C104_entries (d := .two) exPoints exQ 1 7 exJ rfl hdet (fun _ => 3) (fun _ k => if k = 0 then 1 else 4) (exGood _ _ _) 0 one_pos 0 (by norm_num) 0 one_pos 0
    (by norm_num)).1
  constructor
  · refine h.unique ?_
    have e : ∀ s : ℝ, specFlux exQ exJ (exPoints.data 7) (Function.update (exPoints.args 7) 0 (fun _ => 2, Function.update (fun _ k => if k = 0 then (1 : ℝ) else 4) 0
        (Function.update (fun k => if k = 0 then (1 : ℝ) else 4) 0 s))) 0 0 = s * 15 + -60 := by
      intro s
      simp [specFlux, exQ, exJ_det, exJ_inv, plain, reads, exK, exT, std2, exPoints, Fin.sum_univ_two]
      ring
    beta_reduce
    simp only [e]
    exact (((hasDerivAt_id' _).mul_const 15).add_const _).congr_deriv (by norm_num)
  · refine h'.unique ?_
    have e : ∀ s : ℝ, specSource exQ exJ (exPoints.data 7) (Function.update (exPoints.args 7) 1 (Function.update (fun _ => (3 : ℝ)) 0 s, fun _ k => if k = 0 then (1 : ℝ) else 4))
        0 = s * 4 := by
      intro s
      simp [specSource, exQ, exJ_det, plain, reads, exK, exT, std2, exPoints]
      ring
    beta_reduce
    simp only [e]
    exact ((hasDerivAt_id' _).mul_const 4).congr_deriv (by norm_num)

/-- The element matrix by the temperature is the derivative of the residual on two elements with a one-point rule. -/
example (U dU r : ℕ → ℝ) (old : Buffer ℝ) (el t : ℕ) (ht : t < 3) :
    HasDerivAt (fun s : ℝ => evalKernel (simplex C51.tri) (simplex C51.tri) 1 1 false false (pointFn (d := .two) exPoints exQ none 0) [4, 2] (fun p => U p + s * dU p) r (el * 3 + t))
      (∑ b ∈ range 3, gradientKernel (simplex C51.tri) (simplex C51.tri) 1 1 (exQ.shape (some 0))
        (evalDerivs 1 (simplex C51.tri) 1 (pointGrad (d := .two) exPoints exQ 0) [4, 2] U old) [4, 2] (fun _ => 0) ((el * 3 + b) * 3 + t) * dU (el * 3 + b)) 0 :=
  C104_jacobian (d := .two) exPoints exQ none 0 (fun _ => exJ) (fun _ => rfl) (C51.C51_simplex C51.tri).2 (C51.C51_simplex C51.tri).1 one_pos (by simp [simplex, C51.tri]) (Or.inl rfl) rfl [4, 2] U dU r old
    (fun _ _ _ _ => ⟨by rw [exJ_det]; norm_num, exGood _ _ _⟩) el t (by simpa [simplex, C51.tri] using ht)

/-- The quantity of interest `∫ κ T`: its derivative by the temperature. -/
example (U dU r : ℕ → ℝ) (old : Buffer ℝ) :=
  C104_jacobian (d := .two) exPoints { exQ with flux := none } none 0 (fun _ => exJ) (fun _ => rfl) (C51.C51_qoi 1 fun _ => (1 / 2 : ℝ)).1 (C51.C51_simplex C51.tri).1 one_pos
    (by simp [qoi]) (Or.inr rfl) rfl [4, 2] U dU r old
    (fun _ _ _ _ => ⟨by rw [exJ_det]; norm_num, (exGood _ _ _).1, fun _ h => by cases h⟩) 0 0 (by simp [qoi])

/-- A convective flux `κ (T - 20)` on an edge with derivative `(3, 4)`: area 5; its face matrix is a derivative (linear elements on the edge, any rule). -/
def exFace : Fin 1 → Expr (Input 2 (fun _ => 1) 1 Empty) := fun _ => .bin .mul (.var (.val 1 0)) (.bin .sub (.var (.val 0 0)) (.const 20))
def exFaces : FacePoints 2 .two Empty where
  jac _ _ j := if j = 0 then 3 else 4
  data _ := Empty.elim
  args _ _ := (fun _ => 3, fun _ _ => 1)

example : (facePointFn (d := .two) exFaces exFace none 0 5 (fun _ => 22) fun _ _ => 1).1 0 = 30 ∧ faceShape (some 0) exFace = ⟨false, true, true, true⟩ := by
  refine ⟨?_, ?_⟩
  · rw [C104_face_value (d := .two) exFaces exFace none 0 5 _ _ 0 one_pos]
    have e : area .two (exFaces.jac 5) = 5 := by
      have e' : Tensor.sqNormV (crossFace2 fun j => exFaces.jac 5 0 j) = 5 ^ 2 := by
        simp [Tensor.sqNormV_eq, crossFace2, exFaces, Fin.sum_univ_two]
        norm_num
      simp only [area, Transform.norm]
      rw [e', Real.sqrt_sq (by norm_num)]
    rw [e]
    simp [exFaces, exFace, plain, faceReads, std2]
    norm_num
  · simp [faceShape, exFace, joinAll, Fin.foldl_succ_last, kind, kindOf, chosen, join, Kind.hasValue, Kind.hasGrad]

example (r : SF.Rule ℝ) (U dU res : ℕ → ℝ) (old : Buffer ℝ) (el t : ℕ) (ht : t < 1 * (segmentElem r).ndof) :=
  C104_face_jacobian (d := .two) exFaces exFace none 0 (C51.C51_segment r).2 (C51.C51_segment r).1 one_pos (by simp [segmentElem]) rfl [4, 2] U dU res old
    (fun _ _ _ _ _ => by simp [exFace, Good, C12.Good2]) el t ht

end Serac.C104
