import Verif.Model.PlasticityDual
import Verif.Props.C32
import Mathlib.Analysis.Calculus.FDeriv.Mul
import Mathlib.Analysis.Calculus.FDeriv.Add
import Mathlib.Analysis.SpecialFunctions.Sqrt
import Mathlib.Analysis.Calculus.Deriv.Inverse
/-!
# C60: tangent of small strain plasticity

`J2SmallStrain` (`/repo/src/serac/physics/materials/solid_material.hpp:200-258`) called with dual numbers, which is how the stiffness matrix is assembled.

**Spec.**  The exact return mapping (`IsReturn`, `C60_exact`) and Mathlib's derivative (`Rep`).  A dual number represents a function near a point when it has its value and
its derivative; the gradient type is any vector space read as linear forms, so the theorems cover all directions at once.

**Violated.**  `C60_band_wrong`: next to the yield surface the solver accepts its first bisection point, which depends on the strain in another way than the exact increment;
the derivative returned is that of the exact increment.  The two differ by a factor, not by the tolerance.

**Missing.**  For hardening that is not linear, `C60_tangent_partial` compares with the exact return mapping of a flow stress shifted by the final residual, not with the
derivative of the number the iteration happens to produce (which jumps where the number of iterations changes).  Steps whose scalar solve did not converge: only
`C60_value`, `C60_plastic_form`, `C60_symmetric`, `C60_positive`.  At a trial stress exactly on the surface the stress has no derivative.
-/

noncomputable section
namespace Serac.C60
open Serac.Tensor Serac.J2 Serac.C32
open scoped Matrix Topology

variable {G E : Type} [AddCommGroup G] [Module ℝ G] [NormedAddCommGroup E] [NormedSpace ℝ E]

/-! ## Spec -/

/-- A dual number carries the value and (read through `φ`) the derivative of a function at a point. -/
def Rep (φ : G →ₗ[ℝ] (E →L[ℝ] ℝ)) (p : E) (d : Dual G) (f : E → ℝ) : Prop := d.value = f p ∧ HasFDerivAt f (φ d.gradient) p

/-- Equivalent relative stress before any plastic flow. -/
def trialMises (P : Params) (st : State) (H : M3) : ℝ := mises P.Hk (hooke P (strain H - st.plasticStrain)) st.plasticStrain

/-- Flow direction: normal of the yield surface at the trial stress. -/
def normal (P : Params) (st : State) (H : M3) : M3 :=
  (3 / 2 / trialMises P st H) • (deviator (hooke P (strain H - st.plasticStrain)) - (2 / 3 * P.Hk) • st.plasticStrain)

/-- `σ` is the stress of the exact return mapping for the flow stress `Y`: a plastic increment `δ ≥ 0` along the normal brings the equivalent stress to the flow stress
    of the hardened material. -/
def IsReturn (P : Params) (Y : ℝ → ℝ) (st : State) (H σ : M3) : Prop :=
  ∃ δ, 0 ≤ δ ∧ trialMises P st H - (3 * shear P + P.Hk) * δ = Y (st.eqps + δ) ∧
    σ = hooke P (strain H - (st.plasticStrain + δ • normal P st H))

/-! ## Dual arithmetic -/

section rep
variable {φ : G →ₗ[ℝ] (E →L[ℝ] ℝ)} {p : E} {a b : Dual G} {f g : E → ℝ}

theorem Rep.add (ha : Rep φ p a f) (hb : Rep φ p b g) : Rep φ p (a.add b) fun x => f x + g x := by
  refine ⟨by simp [Dual.add, ha.1, hb.1], ?_⟩
  simp only [Dual.add, map_add]
  exact ha.2.add hb.2

theorem Rep.sub (ha : Rep φ p a f) (hb : Rep φ p b g) : Rep φ p (a.sub b) fun x => f x - g x := by
  refine ⟨by simp [Dual.sub, ha.1, hb.1], ?_⟩
  simp only [Dual.sub, map_sub]
  exact ha.2.sub hb.2

theorem Rep.subR (ha : Rep φ p a f) (c : ℝ) : Rep φ p (a.subR c) fun x => f x - c :=
  ⟨by simp [Dual.subR, ha.1], ha.2.sub_const c⟩

theorem Rep.mulL (ha : Rep φ p a f) (c : ℝ) : Rep φ p (.mulL c a) fun x => c * f x := by
  refine ⟨by simp [Dual.mulL, ha.1], ?_⟩
  simp only [Dual.mulL, map_smul]
  exact ha.2.const_mul c

theorem Rep.mulR (ha : Rep φ p a f) (c : ℝ) : Rep φ p (a.mulR c) fun x => f x * c := by
  refine ⟨by simp [Dual.mulR, ha.1], ?_⟩
  simp only [Dual.mulR, map_smul]
  exact ha.2.mul_const c

theorem Rep.divR (ha : Rep φ p a f) (c : ℝ) : Rep φ p (a.divR c) fun x => f x / c := by
  refine ⟨by simp [Dual.divR, ha.1], ?_⟩
  simp only [Dual.divR, map_smul, div_eq_mul_inv]
  exact ha.2.mul_const _

theorem Rep.mul (ha : Rep φ p a f) (hb : Rep φ p b g) : Rep φ p (a.mul b) fun x => f x * g x := by
  refine ⟨by simp [Dual.mul, ha.1, hb.1], ?_⟩
  simp only [Dual.mul, map_add, map_smul]
  rw [ha.1, hb.1, add_comm]
  exact ha.2.mul hb.2

theorem Rep.div (ha : Rep φ p a f) (hb : Rep φ p b g) (h : g p ≠ 0) : Rep φ p (a.div b) fun x => f x / g x := by
  refine ⟨by simp [Dual.div, ha.1, hb.1], ?_⟩
  simp only [Dual.div, map_sub, map_smul]
  rw [ha.1, hb.1]
  have hinv : HasFDerivAt (fun x => (g x)⁻¹) (-((g p) ^ 2)⁻¹ • φ b.gradient) p := by
    have := (hasDerivAt_inv h).comp_hasFDerivAt p hb.2
    exact this
  have := ha.2.mul hinv
  simp only [div_eq_mul_inv]
  have e : (g p)⁻¹ • φ a.gradient - (g p * g p)⁻¹ • f p • φ b.gradient = f p • -(g p ^ 2)⁻¹ • φ b.gradient + (g p)⁻¹ • φ a.gradient := by
    ext v
    simp only [sub_apply, add_apply, smul_apply, smul_eq_mul]
    ring
  rw [e]
  exact this

theorem Rep.sqrt (ha : Rep φ p a f) (h : f p ≠ 0) : Rep φ p a.sqrt fun x => Real.sqrt (f x) := by
  refine ⟨by simp [Dual.sqrt, ha.1], ?_⟩
  simp only [Dual.sqrt, map_smul]
  have := (Real.hasDerivAt_sqrt h).comp_hasFDerivAt p ha.2
  rw [ha.1, ← one_div]
  exact this

theorem Rep.zero : Rep φ p (zeroD : Dual G) fun _ => 0 := by
  refine ⟨rfl, ?_⟩
  simp only [zeroD, map_zero]
  exact hasFDerivAt_const _ _

theorem Rep.congr (ha : Rep φ p a f) (h : ∀ x, f x = g x) : Rep φ p a g := by
  have : f = g := funext h
  rwa [← this]

end rep

/-! ## Tensor functions -/

omit [Module ℝ G] in
theorem trD_eq (A : MatD G) : trD A = ((zeroD.add (A 0 0)).add (A 1 1)).add (A 2 2) := by
  simp [trD, Fin.foldl_succ]

theorem devD_eq (A : MatD G) (i j : Fin 3) : devD A i j = if i = j then (A i j).sub ((trD A).divR 3) else A i j := by
  unfold devD
  generalize (trD A).divR 3 = t
  fin_cases i <;> fin_cases j <;> simp [Fin.foldl_succ, Function.update]

theorem sqNormD_eq (A : MatD G) : sqNormD A = (((((((((zeroD.add ((A 0 0).mul (A 0 0))).add ((A 0 1).mul (A 0 1))).add ((A 0 2).mul (A 0 2))).add
    ((A 1 0).mul (A 1 0))).add ((A 1 1).mul (A 1 1))).add ((A 1 2).mul (A 1 2))).add ((A 2 0).mul (A 2 0))).add ((A 2 1).mul (A 2 1))).add
    ((A 2 2).mul (A 2 2))) := by
  simp [sqNormD, Fin.foldl_succ]

section tensor
variable {φ : G →ₗ[ℝ] (E →L[ℝ] ℝ)} {p : E} {A : MatD G} {F : E → M3}

/-- All entries. -/
def RepM (φ : G →ₗ[ℝ] (E →L[ℝ] ℝ)) (p : E) (A : MatD G) (F : E → M3) : Prop := ∀ i j, Rep φ p (A i j) fun x => F x i j

theorem RepM.tr (h : RepM φ p A F) : Rep φ p (trD A) fun x => (F x).trace := by
  rw [trD_eq]
  refine (((Rep.zero.add (h 0 0)).add (h 1 1)).add (h 2 2)).congr fun x => ?_
  simp [Matrix.trace, Fin.sum_univ_three]

theorem RepM.dev (h : RepM φ p A F) : RepM φ p (devD A) fun x => deviator (F x) := by
  intro i j
  rw [devD_eq]
  by_cases hij : i = j
  · rw [if_pos hij]
    refine ((h i j).sub (h.tr.divR 3)).congr fun x => ?_
    simp [deviator, hij]
  · rw [if_neg hij]
    refine (h i j).congr fun x => ?_
    simp [deviator, Matrix.one_apply_ne hij]

theorem RepM.sym (h : RepM φ p A F) : RepM φ p (symD A) fun x => strain (F x) := by
  intro i j
  refine (((h i j).add (h j i)).mulL (1 / 2)).congr fun x => ?_
  simp [strain]

theorem RepM.sqNorm (h : RepM φ p A F) : Rep φ p (sqNormD A) fun x => ∑ i, ∑ j, F x i j ^ 2 := by
  rw [sqNormD_eq]
  have m := fun i j => (h i j).mul (h i j)
  refine (((((((((Rep.zero.add (m 0 0)).add (m 0 1)).add (m 0 2)).add (m 1 0)).add (m 1 1)).add (m 1 2)).add (m 2 0)).add (m 2 1)).add (m 2 2)).congr
    fun x => ?_
  simp only [Fin.sum_univ_three]
  ring

theorem RepM.norm (h : RepM φ p A F) (h0 : frob (F p) ≠ 0) : Rep φ p (normD A) fun x => frob (F x) := by
  refine h.sqNorm.sqrt fun hz => h0 ?_
  rw [frob, hz, Real.sqrt_zero]

end tensor

/-! ## The predictor and the corrected stress -/

section update
variable {φ : G →ₗ[ℝ] (E →L[ℝ] ℝ)} {x0 : E} {du : MatD G} {H : E → M3}

/-- Elastic trial strain and relative stress. -/
def el (st : State) (H : M3) : M3 := strain H - st.plasticStrain
def rel (P : Params) (st : State) (H : M3) : M3 := eta P (el st H) st.plasticStrain

theorem trialMises_eq {P : Params} (hP : Good P) (st : State) (H : M3) : trialMises P st H = Real.sqrt (3 / 2) * frob (rel P st H) := by
  rw [trialMises, mises, deviator_hooke hP]
  rfl

theorem normal_eq {P : Params} (hP : Good P) (st : State) (H : M3) : normal P st H = (3 / 2 / trialMises P st H) • rel P st H := by
  rw [normal, deviator_hooke hP]
  rfl

theorem rep_el (st : State) (h : RepM φ x0 du H) :
    RepM φ x0 (fun i j => (symD du i j).subR (st.plasticStrain i j)) fun x => el st (H x) := fun i j => (h.sym i j).subR _

theorem rep_p (P : Params) (st : State) (h : RepM φ x0 du H) :
    Rep φ x0 (predictorD P st du).1 fun x => bulk P * (el st (H x)).trace := (rep_el st h).tr.mulL _

theorem rep_s (P : Params) (st : State) (h : RepM φ x0 du H) :
    RepM φ x0 (predictorD P st du).2.1 fun x => (2 * shear P) • deviator (el st (H x)) := fun i j => ((rep_el st h).dev i j).mulL _

theorem rep_eta (P : Params) (st : State) (h : RepM φ x0 du H) :
    RepM φ x0 (predictorD P st du).2.2.1 fun x => rel P st (H x) := fun i j => (rep_s P st h i j).subR _

theorem rep_q {P : Params} (hP : Good P) (st : State) (h : RepM φ x0 du H) (h0 : trialMises P st (H x0) ≠ 0) :
    Rep φ x0 (predictorD P st du).2.2.2 fun x => trialMises P st (H x) := by
  rw [trialMises_eq hP] at h0
  exact ((rep_eta P st h).norm (right_ne_zero_of_mul h0)).mulL _ |>.congr fun x => (trialMises_eq hP st (H x)).symm

/-- Values alone. -/
theorem predictorD_values (P : Params) (st : State) (du : MatD G) :
    let r := predictor P st fun i j => (du i j).value
    (predictorD P st du).1.value = r.1 ∧ (fun i j => ((predictorD P st du).2.1 i j).value) = r.2.1 ∧
      (fun i j => ((predictorD P st du).2.2.1 i j).value) = r.2.2.1 ∧ (predictorD P st du).2.2.2.value = r.2.2.2 := by
  -- the values do not depend on the gradients: read them with the zero map
  have h : RepM (0 : G →ₗ[ℝ] (ℝ →L[ℝ] ℝ)) 0 du fun _ => (fun i j => (du i j).value : M3) := fun i j =>
    ⟨rfl, by rw [LinearMap.zero_apply]; exact hasFDerivAt_const _ _⟩
  intro r
  have hr : r = _ := predictor_eq P st fun i j => (du i j).value
  refine ⟨?_, ?_, ?_, ?_⟩
  · rw [(rep_p P st h).1, hr]
    rfl
  · rw [hr]
    funext i j
    exact (rep_s P st h i j).1
  · rw [hr]
    funext i j
    exact (rep_eta P st h i j).1
  · rw [hr]
    change Real.sqrt (3 / 2) * Real.sqrt (sqNormD (predictorD P st du).2.2.1).value = _
    rw [(rep_eta P st h).sqNorm.1]
    rfl

/-- **C60, derivatives do not disturb the update.**  Called with derivative-carrying numbers, the material stops exactly when the plain update stops, and otherwise
    returns the same stress values and the same internal state. -/
theorem C60_value (P : Params) (st : State) (du : MatD G) :
    (updateD P st du).map (fun r => ((fun i j => (r.1 i j).value : M3), r.2)) =
      (update P st fun i j => (du i j).value).map fun r => (r.1, r.2.1) := by
  obtain ⟨h1, h2, h3, h4⟩ := predictorD_values P st du
  unfold updateD update
  generalize predictor P st (fun i j => (du i j).value) = pr at h1 h2 h3 h4 ⊢
  generalize predictorD P st du = pd at h1 h2 h3 h4 ⊢
  obtain ⟨p, s, η, q⟩ := pr
  obtain ⟨p', s', η', q'⟩ := pd
  dsimp only at h1 h2 h3 h4 ⊢
  subst h1 h2 h3 h4
  by_cases c1 : 1 - 2 * P.nu = 0 ∨ 1 + P.nu = 0
  · simp only [if_pos c1, Option.map_none]
    rfl
  simp only [if_neg c1]
  by_cases c2 : residual P st.eqps q'.value 0 > tol * P.sigmaY
  · simp only [if_pos c2]
    by_cases c3 : 3 * shear P + P.Hk = 0 ∨ q'.value = 0
    · simp only [if_pos c3, Option.map_none]
      rfl
    simp only [if_neg c3]
    cases ScalarSolver.solve (residual P st.eqps q'.value) (dresidual P st.eqps) ⟨0, tol * P.sigmaY, 25⟩ 0 0
      ((q'.value - P.Y st.eqps) / (3 * shear P + P.Hk)) with
    | notBracketed => rfl
    | undefined => rfl
    | ok r =>
      simp only [Option.map_some, rootD, Dual.add, Dual.sub, Dual.mul, Dual.mulL, Dual.mulR, Dual.div, one_mul, identity]
      rfl
  · simp only [if_neg c2, Option.map_some, Dual.add, Dual.mulL, Dual.mulR, one_mul, identity]
    rfl

/-! ## Derivative of the increment -/

/-- A function that vanishes at the point, times one that is only continuous there. -/
theorem hasFDerivAt_mul_continuous {u v : E → ℝ} {u' : E →L[ℝ] ℝ} {x : E} (hu : HasFDerivAt u u' x) (h0 : u x = 0) (hv : ContinuousAt v x) :
    HasFDerivAt (fun y => u y * v y) (v x • u') x := by
  rw [hasFDerivAt_iff_isLittleO] at hu ⊢
  have h1 : (fun y => u y - u x - u' (y - x)) =o[𝓝 x] fun y => y - x := hu
  have h2 : (fun y => v y * (u y - u x - u' (y - x))) =o[𝓝 x] fun y => y - x := by
    have hb : v =O[𝓝 x] fun _ => (1 : ℝ) := hv.isBigO_one ℝ
    have := hb.mul_isLittleO h1.norm_right
    simp only [one_mul] at this
    exact this.of_norm_right
  have h3 : (fun y => (v y - v x) * u' (y - x)) =o[𝓝 x] fun y => y - x := by
    have ha : (fun y => v y - v x) =o[𝓝 x] fun _ => (1 : ℝ) := by
      rw [Asymptotics.isLittleO_one_iff]
      exact tendsto_sub_nhds_zero_iff.2 hv
    have hb : (fun y => u' (y - x)) =O[𝓝 x] fun y => y - x := u'.isBigO_sub _ _
    have := ha.mul_isBigO hb.norm_right
    simp only [one_mul] at this
    exact this.of_norm_right
  refine (h2.add h3).congr_left fun y => ?_
  simp only [h0, smul_apply, smul_eq_mul]
  ring

/-- Implicit differentiation of `c δ + Y (a + δ) = q` for a selection `δ ≥ 0`. -/
theorem implicit {c a : ℝ} (hc : 0 < c) (ha : 0 ≤ a) {Y dY : ℝ → ℝ} (hm : ∀ b b', 0 ≤ b → b ≤ b' → Y b ≤ Y b') {δ q : E → ℝ} {q' : E →L[ℝ] ℝ} {x : E}
    (hY : HasDerivAt Y (dY (a + δ x)) (a + δ x)) (hd : 0 ≤ dY (a + δ x)) (hq : HasFDerivAt q q' x)
    (h : ∀ᶠ y in 𝓝 x, 0 ≤ δ y ∧ q y - c * δ y = Y (a + δ y)) : HasFDerivAt δ ((c + dY (a + δ x))⁻¹ • q') x := by
  obtain ⟨h0, hx⟩ := h.self_of_nhds
  set g : ℝ → ℝ := fun d => c * d + Y (a + d) with hg
  have hgd : HasDerivAt g (c + dY (a + δ x)) (δ x) := by
    have h1 : HasDerivAt (fun d => c * d) c (δ x) := by simpa using (hasDerivAt_id (δ x)).const_mul c
    have h2 : HasDerivAt (fun d => Y (a + d)) (dY (a + δ x)) (δ x) := HasDerivAt.comp_const_add a (δ x) hY
    exact h1.add h2
  have hpos : 0 < c + dY (a + δ x) := by linarith
  -- continuity from monotonicity
  have hlip : ∀ᶠ y in 𝓝 x, |δ y - δ x| ≤ |q y - q x| / c := by
    filter_upwards [h] with y hy
    rw [le_div_iff₀ hc]
    rcases le_total (δ x) (δ y) with hle | hle
    · have := hm (a + δ x) (a + δ y) (by linarith) (by linarith)
      have h1 : (δ y - δ x) * c ≤ q y - q x := by linarith [hy.2]
      rw [abs_of_nonneg (by linarith), abs_of_nonneg (le_trans (by nlinarith) h1)]
      exact h1
    · have := hm (a + δ y) (a + δ x) (by linarith [hy.1]) (by linarith)
      have h1 : (δ x - δ y) * c ≤ q x - q y := by linarith [hy.2]
      rw [abs_sub_comm, abs_sub_comm (q y), abs_of_nonneg (by linarith), abs_of_nonneg (le_trans (by nlinarith) h1)]
      exact h1
  have hcont : ContinuousAt δ x := by
    have hz : Filter.Tendsto (fun y => |q y - q x| / c) (𝓝 x) (𝓝 0) := by
      have h1 : Filter.Tendsto (fun y => q y - q x) (𝓝 x) (𝓝 0) := tendsto_sub_nhds_zero_iff.2 hq.continuousAt
      simpa using h1.abs.div_const c
    rw [ContinuousAt, tendsto_iff_norm_sub_tendsto_zero]
    exact squeeze_zero' (Filter.Eventually.of_forall fun y => norm_nonneg _) hlip hz
  have hD : ContinuousAt (fun y => (dslope g (δ x) (δ y))⁻¹) x := by
    have h1 : ContinuousAt (dslope g (δ x)) (δ x) := continuousAt_dslope_same.2 hgd.differentiableAt
    have h2 : ContinuousAt (fun y => dslope g (δ x) (δ y)) x := ContinuousAt.comp (f := δ) h1 hcont
    exact h2.inv₀ (by rw [dslope_same, hgd.deriv]; exact hpos.ne')
  have hprod := hasFDerivAt_mul_continuous (hq.sub_const (q x)) (sub_self _) hD
  have hval : (dslope g (δ x) (δ x))⁻¹ = (c + dY (a + δ x))⁻¹ := by rw [dslope_same, hgd.deriv]
  rw [hval] at hprod
  have hprod' := hprod.add_const (δ x)
  refine hprod'.congr_of_eventuallyEq ?_
  filter_upwards [h] with y hy
  have hs : (δ y - δ x) * dslope g (δ x) (δ y) = g (δ y) - g (δ x) := by
    have := sub_smul_dslope g (δ x) (δ y)
    simpa [smul_eq_mul] using this
  have hgy : g (δ y) - g (δ x) = q y - q x := by
    rw [hg]
    dsimp only
    linarith [hy.2]
  by_cases he : δ y = δ x
  · rw [← hgy, he]
    simp
  · have hne : dslope g (δ x) (δ y) ≠ 0 := by
      intro hz
      rw [hz, mul_zero, hgy] at hs
      rcases lt_or_gt_of_ne he with hl | hl
      · have := hm (a + δ y) (a + δ x) (by linarith [hy.1]) (by linarith)
        nlinarith [hy.2]
      · have := hm (a + δ x) (a + δ y) (by linarith) (by linarith)
        nlinarith [hy.2]
    change δ y = (q y - q x) * (dslope g (δ x) (δ y))⁻¹ + δ x
    rw [← hgy, ← hs, mul_assoc, mul_inv_cancel₀ hne]
    ring

/-! ## The exact return mapping -/

theorem exact_unique {P : Params} (hP : Good P) {Y : ℝ → ℝ} (hm : ∀ a b, 0 ≤ a → a ≤ b → Y a ≤ Y b) {st : State} (hst : Adm st) {t δ δ' : ℝ} (h0 : 0 ≤ δ)
    (h0' : 0 ≤ δ') (h : t - (3 * shear P + P.Hk) * δ = Y (st.eqps + δ)) (h' : t - (3 * shear P + P.Hk) * δ' = Y (st.eqps + δ')) : δ = δ' := by
  have hc : 0 < 3 * shear P + P.Hk := by linarith [hP.Hk, shear_pos hP]
  rcases lt_trichotomy δ δ' with hl | hl | hl
  · have := hm (st.eqps + δ) (st.eqps + δ') (by linarith [hst.eqps]) (by linarith)
    nlinarith
  · exact hl
  · have := hm (st.eqps + δ') (st.eqps + δ) (by linarith [hst.eqps]) (by linarith)
    nlinarith

/-- **C60, the exact return mapping is well defined**: for a continuous non-decreasing flow stress and a trial stress outside the yield surface there is exactly one stress. -/
theorem C60_exact {P : Params} (hP : Good P) {Y : ℝ → ℝ} (hm : ∀ a b, 0 ≤ a → a ≤ b → Y a ≤ Y b) (hY : ContinuousOn Y (Set.Ici 0)) {st : State} (hst : Adm st)
    (H : M3) (hout : Y st.eqps ≤ trialMises P st H) : ∃! σ, IsReturn P Y st H σ := by
  have hc : 0 < 3 * shear P + P.Hk := by linarith [hP.Hk, shear_pos hP]
  set t := trialMises P st H with ht
  have hu : 0 ≤ (t - Y st.eqps) / (3 * shear P + P.Hk) := div_nonneg (by linarith) hc.le
  have hcont : ContinuousOn (fun δ => t - (3 * shear P + P.Hk) * δ - Y (st.eqps + δ)) (Set.Icc 0 ((t - Y st.eqps) / (3 * shear P + P.Hk))) := by
    refine ContinuousOn.sub (by fun_prop) (hY.comp (by fun_prop) ?_)
    intro d hd
    exact add_nonneg hst.eqps hd.1
  have := intermediate_value_Icc' hu hcont
  obtain ⟨δ, hδ, e⟩ := this (show (0 : ℝ) ∈ Set.Icc _ _ by
    constructor
    · have := hm st.eqps (st.eqps + (t - Y st.eqps) / (3 * shear P + P.Hk)) hst.eqps (by linarith)
      rw [mul_div_cancel₀ _ hc.ne']
      linarith
    · simp only [mul_zero, sub_zero, add_zero]
      linarith)
  refine ⟨_, ⟨δ, hδ.1, by linarith, rfl⟩, ?_⟩
  rintro σ ⟨δ', h0, h1, h2⟩
  rw [h2, exact_unique hP hm hst h0 hδ.1 h1 (by linarith)]

/-- Entries of the corrected stress as the code computes them. -/
theorem corrected_eq {P : Params} (hP : Good P) {st : State} (hst : Adm st) (H : M3) (δ : ℝ) (i j : Fin 3) :
    ((2 * shear P) • deviator (el st H)) i j - (2 * shear P * δ) * (3 / 2 * rel P st H i j / trialMises P st H) +
      (1 * (bulk P * (el st H).trace)) * (if i = j then 1 else 0) = hooke P (strain H - (st.plasticStrain + δ • normal P st H)) i j := by
  have e1 : strain H - (st.plasticStrain + δ • normal P st H) = el st H - (δ * (3 / 2 / trialMises P st H)) • rel P st H := by
    rw [normal_eq hP, smul_smul, el]
    abel
  have htr : (rel P st H).trace = 0 := trace_eta P _ _ hst.trace
  rw [e1, hooke_eq hP, deviator_sub (el st H), deviator_smul, Matrix.trace_sub (el st H), Matrix.trace_smul, deviator_of_traceless htr, htr]
  simp only [Matrix.add_apply, Matrix.sub_apply, Matrix.smul_apply, smul_eq_mul, mul_zero, sub_zero, Matrix.one_apply]
  ring

theorem elastic_eq {P : Params} (hP : Good P) (st : State) (H : M3) (i j : Fin 3) :
    ((2 * shear P) • deviator (el st H)) i j + (1 * (bulk P * (el st H).trace)) * (if i = j then 1 else 0) = hooke P (strain H - st.plasticStrain) i j := by
  rw [hooke_eq hP]
  simp only [Matrix.add_apply, Matrix.smul_apply, smul_eq_mul, Matrix.one_apply, el]
  ring

theorem continuousAt_trialMises {P : Params} (hP : Good P) (st : State) (h : RepM φ x0 du H) : ContinuousAt (fun x => trialMises P st (H x)) x0 := by
  have h1 := (rep_eta P st h).sqNorm.2.continuousAt
  have : (fun x => trialMises P st (H x)) = fun x => Real.sqrt (3 / 2) * Real.sqrt (∑ i, ∑ j, rel P st (H x) i j ^ 2) := by
    funext x
    rw [trialMises_eq hP]
    rfl
  rw [this]
  exact continuousAt_const.mul h1.sqrt

theorem value_eq (h : RepM φ x0 du H) : (fun i j => (du i j).value : M3) = H x0 := by
  funext i j
  exact (h i j).1

theorem qvalue_eq {P : Params} (hP : Good P) (st : State) (h : RepM φ x0 du H) : (predictorD P st du).2.2.2.value = trialMises P st (H x0) := by
  rw [(predictorD_values P st du).2.2.2, value_eq h, predictor_eq, trialMises_eq hP]
  rfl

theorem nu_ok {P : Params} (hP : Good P) : ¬ (1 - 2 * P.nu = 0 ∨ 1 + P.nu = 0) := by
  rintro (h | h)
  · exact hP.nu' h
  · linarith [hP.nu]

/-- **C60, elastic steps.**  Strictly inside the (tolerance-widened) yield surface the derivative returned is the derivative of the stress the code computes. -/
theorem C60_elastic {P : Params} (hP : Good P) {st : State} (h : RepM φ x0 du H)
    (hin : trialMises P st (H x0) - P.Y st.eqps < tol * P.sigmaY) :
    ∃ (σ : MatD G) (S : E → M3), updateD P st du = some (σ, st) ∧ (∀ᶠ x in 𝓝 x0, update P st (H x) = some (S x, st, none)) ∧ RepM φ x0 σ S := by
  have hq := qvalue_eq hP st h
  refine ⟨fun i j => ((predictorD P st du).2.1 i j).add ((Dual.mulL 1 (predictorD P st du).1).mulR (if i = j then 1 else 0)),
    fun x => hooke P (strain (H x) - st.plasticStrain), ?_, ?_, ?_⟩
  · unfold updateD
    rw [if_neg (nu_ok hP)]
    dsimp only
    rw [if_neg]
    rw [hq, J2.residual]
    simp only [mul_zero, sub_zero, add_zero, gt_iff_lt, not_lt]
    exact hin.le
  · have := (continuousAt_trialMises hP st h).sub_const (P.Y st.eqps) |>.eventually_lt_const hin
    filter_upwards [this] with x hx
    unfold update
    rw [if_neg (nu_ok hP), predictor_eq]
    dsimp only
    rw [if_neg]
    · congr 2
      funext i j
      rw [← elastic_eq hP st (H x) i j]
      simp only [one_mul, identity, el]
    · have e := trialMises_eq hP st (H x)
      rw [rel, el] at e
      rw [← e, J2.residual]
      simp only [mul_zero, sub_zero, add_zero, gt_iff_lt, not_lt]
      exact hx.le
  · intro i j
    exact ((rep_s P st h i j).add (((rep_p P st h).mulL 1).mulR _)).congr fun x => elastic_eq hP st (H x) i j

/-- The stress with derivatives after a plastic step. -/
def plasticD (P : Params) (st : State) (du : MatD G) (r : ScalarSolver.Result) : MatD G := fun i j =>
  (((predictorD P st du).2.1 i j).sub ((Dual.mulL (2 * shear P) (rootD P st.eqps (predictorD P st du).2.2.2 r)).mul
    ((Dual.mulL (3 / 2) ((predictorD P st du).2.2.1 i j)).div (predictorD P st du).2.2.2))).add
    ((Dual.mulL 1 (predictorD P st du).1).mulR (if i = j then 1 else 0))

/-- What is known of a plastic step. -/
theorem plastic_step {P : Params} (hP : Good P) {st st' : State} (hst : Adm st) (h : RepM φ x0 du H) {S : M3} {r : ScalarSolver.Result}
    (hu : update P st (H x0) = some (S, st', some r)) :
    0 < trialMises P st (H x0) ∧ tol * P.sigmaY < trialMises P st (H x0) - P.Y st.eqps ∧ 0 ≤ r.x ∧
      (3 * shear P + P.Hk) * r.x ≤ trialMises P st (H x0) - P.Y st.eqps ∧
      r.residual = trialMises P st (H x0) - (3 * shear P + P.Hk) * r.x - P.Y (st.eqps + r.x) ∧
      r.dfdx = -(3 * shear P + P.Hk) - P.dY (st.eqps + r.x) ∧ (r.converged = true → |r.residual| < tol * P.sigmaY) ∧
      S = hooke P (strain (H x0) - (st.plasticStrain + r.x • normal P st (H x0))) ∧
      updateD P st du = some (plasticD P st du r, st') := by
  have hq := qvalue_eq hP st h
  have e := trialMises_eq hP st (H x0)
  rcases update_cases hP hst (H x0) with ⟨-, h'⟩ | ⟨r', h1, h2, h3, h4, h5, h6⟩
  · rw [h'] at hu
    cases hu
  rw [h6] at hu
  cases hu
  have e' : Real.sqrt (3 / 2) * frob (eta P (strain (H x0) - st.plasticStrain) st.plasticStrain) = trialMises P st (H x0) := e.symm
  rw [e'] at h1 h2 h4 h5
  have hres := C15.C15_result_partial 0 0 _ r h5
  refine ⟨h1, h2, h3, h4, hres.2.2.1, hres.2.2.2.1, ?_, ?_, ?_⟩
  · intro hc
    have htol : 0 < tol * P.sigmaY := mul_pos (by norm_num [tol]) hP.sigmaY
    rcases hres.2.2.2.2.2 hc with h0 | h0 | ⟨s, -, -, h0⟩
    · rw [hres.2.2.1, h0, abs_zero]
      exact htol
    · rw [hres.2.2.1]
      exact h0
    · exact absurd h0 (not_lt.2 (abs_nonneg _))
  · rw [e', normal_eq hP, smul_smul, sub_sub]
    congr 4
    ring
  · have hv := congrArg (Option.map Prod.snd) (C60_value P st du)
    rw [value_eq h, h6] at hv
    have : updateD P st du = some (plasticD P st du r, ⟨fun i j => st.plasticStrain i j + r.x *
        ((Dual.mulL (3 / 2) ((predictorD P st du).2.2.1 i j)).div (predictorD P st du).2.2.2).value, st.eqps + r.x⟩) := by
      unfold updateD
      rw [if_neg (nu_ok hP)]
      dsimp only
      rw [hq, if_pos (by rw [J2.residual]; simp only [mul_zero, sub_zero, add_zero, gt_iff_lt]; exact h2),
        if_neg (by
          rintro (h0 | h0)
          · linarith [hP.Hk, shear_pos hP]
          · exact h1.ne' h0), h5]
      rfl
    rw [this] at hv ⊢
    simp only [Option.map_some] at hv
    rw [Option.some.inj hv]

/-- If the increment with its derivative is that of `δ`, the stress is that of the step with increment `δ`. -/
theorem rep_plastic {P : Params} (hP : Good P) {st : State} (hst : Adm st) (h : RepM φ x0 du H) (h0 : trialMises P st (H x0) ≠ 0) {r : ScalarSolver.Result}
    {δ : E → ℝ} (hδ : Rep φ x0 (rootD P st.eqps (predictorD P st du).2.2.2 r) δ) :
    RepM φ x0 (plasticD P st du r) fun x => hooke P (strain (H x) - (st.plasticStrain + δ x • normal P st (H x))) := by
  intro i j
  have hq := rep_q hP st h h0
  exact (((rep_s P st h i j).sub ((hδ.mulL _).mul (((rep_eta P st h i j).mulL _).div hq h0))).add (((rep_p P st h).mulL 1).mulR _)).congr
    fun x => corrected_eq hP hst (H x) (δ x) i j

/-- The derivative `solve_scalar_equation` attaches to the increment. -/
theorem rep_root {P : Params} (hP : Good P) {st st' : State} (hst : Adm st) (h : RepM φ x0 du H) {S : M3} {r : ScalarSolver.Result}
    (hu : update P st (H x0) = some (S, st', some r)) (hY : ∀ a, 0 ≤ a → HasDerivAt P.Y (P.dY a) a) {δ : E → ℝ} {ρ : ℝ} (hδ0 : δ x0 = r.x)
    (hδ : ∀ᶠ x in 𝓝 x0, 0 ≤ δ x ∧ trialMises P st (H x) - (3 * shear P + P.Hk) * δ x = P.Y (st.eqps + δ x) + ρ) :
    Rep φ x0 (rootD P st.eqps (predictorD P st du).2.2.2 r) δ := by
  obtain ⟨h1, -, h3, -, -, h6, -, -, -⟩ := plastic_step hP hst h hu
  have hc : 0 < 3 * shear P + P.Hk := by linarith [hP.Hk, shear_pos hP]
  have hq := rep_q hP st h h1.ne'
  have ha : 0 ≤ st.eqps + r.x := by linarith [hst.eqps]
  refine ⟨hδ0.symm, ?_⟩
  have := implicit (c := 3 * shear P + P.Hk) (a := st.eqps) hc hst.eqps (Y := fun a => P.Y a + ρ) (dY := P.dY) (δ := δ)
    (fun b b' hb hbb => by linarith [hP.mono b b' hb hbb]) (by rw [hδ0]; exact (hY _ ha).add_const ρ) (by rw [hδ0]; exact hP.deriv _ ha) hq.2 hδ
  simp only [rootD, map_smul, map_neg, Dual.subR]
  rw [h6]
  rw [hδ0] at this
  have e : (-(3 * shear P + P.Hk) - P.dY (st.eqps + r.x))⁻¹ • -φ (predictorD P st du).2.2.2.gradient =
      (3 * shear P + P.Hk + P.dY (st.eqps + r.x))⁻¹ • φ (predictorD P st du).2.2.2.gradient := by
    rw [smul_neg, ← neg_smul, ← inv_neg]
    congr 2
    ring
  rw [e]
  exact this

/-- **C60, plastic steps.**  For every material with a differentiable flow stress: if the scalar solve converges, leaving the residual `ρ` (smaller than the tolerance),
    then stress and derivative are, exactly, the stress and its derivative of the exact return mapping of the material whose flow stress is raised by the constant `ρ`. -/
theorem C60_tangent_partial {P : Params} (hP : Good P) {st st' : State} (hst : Adm st) (hY : ∀ a, 0 ≤ a → HasDerivAt P.Y (P.dY a) a) (h : RepM φ x0 du H)
    {S : M3} {r : ScalarSolver.Result} (hu : update P st (H x0) = some (S, st', some r)) (hc : r.converged = true) :
    |r.residual| < tol * P.sigmaY ∧ ∃ (σ : MatD G) (S' : E → M3), updateD P st du = some (σ, st') ∧ S' x0 = S ∧
      (∀ᶠ x in 𝓝 x0, IsReturn P (fun a => P.Y a + r.residual) st (H x) (S' x)) ∧ RepM φ x0 σ S' := by
  obtain ⟨h1, h2, h3, h4, h5, h6, h7, h8, h9⟩ := plastic_step hP hst h hu
  have hρ := h7 hc
  refine ⟨hρ, ?_⟩
  have hcp : 0 < 3 * shear P + P.Hk := by linarith [hP.Hk, shear_pos hP]
  -- the increment is positive
  have hx : 0 < r.x := by
    rcases h3.lt_or_eq with hx | hx
    · exact hx
    · rw [← hx, mul_zero, sub_zero, add_zero] at h5
      rw [← h5] at h2
      exact absurd (abs_lt.1 hρ).2 (not_lt.2 h2.le)
  set Y' : ℝ → ℝ := fun a => P.Y a + r.residual with hY'
  have hm' : ∀ a b, 0 ≤ a → a ≤ b → Y' a ≤ Y' b := fun a b ha hab => by
    have := hP.mono a b ha hab
    simp only [hY']
    linarith
  have hcont : ContinuousOn Y' (Set.Ici 0) := fun a ha => ((hY a ha).continuousAt.add_const _).continuousWithinAt
  have hnear : ∀ᶠ x in 𝓝 x0, Y' st.eqps < trialMises P st (H x) := by
    refine (continuousAt_trialMises hP st h).eventually_const_lt ?_
    have := hP.mono st.eqps (st.eqps + r.x) hst.eqps (by linarith)
    have : 0 < (3 * shear P + P.Hk) * r.x := mul_pos hcp hx
    simp only [hY']
    rw [h5]
    linarith
  have hex : ∀ x, ∃ δ, Y' st.eqps < trialMises P st (H x) →
      0 ≤ δ ∧ trialMises P st (H x) - (3 * shear P + P.Hk) * δ = Y' (st.eqps + δ) := by
    intro x
    by_cases hx' : Y' st.eqps < trialMises P st (H x)
    · obtain ⟨σ, ⟨δ, d1, d2, -⟩, -⟩ := C60_exact hP hm' hcont hst (H x) hx'.le
      exact ⟨δ, fun _ => ⟨d1, d2⟩⟩
    · exact ⟨0, fun h => absurd h hx'⟩
  choose δ hδ using hex
  have hδ' : ∀ᶠ x in 𝓝 x0, 0 ≤ δ x ∧ trialMises P st (H x) - (3 * shear P + P.Hk) * δ x = P.Y (st.eqps + δ x) + r.residual := by
    filter_upwards [hnear] with x hx' using hδ x hx'
  have hδ0 : δ x0 = r.x := by
    obtain ⟨d1, d2⟩ := hδ'.self_of_nhds
    exact exact_unique hP hm' hst d1 h3 d2 (by simp only [hY']; linarith)
  refine ⟨_, fun x => hooke P (strain (H x) - (st.plasticStrain + δ x • normal P st (H x))), h9, ?_, ?_, ?_⟩
  · dsimp only
    rw [hδ0, h8]
  · filter_upwards [hδ'] with x hx'
    exact ⟨δ x, hx'.1, hx'.2, rfl⟩
  · exact rep_plastic hP hst h h1.ne' (rep_root hP hst h hu hY hδ0 hδ')

end update

/-! ## The tangent as a bilinear form -/

/-- Double contraction. -/
def inner (A B : M3) : ℝ := ∑ i, ∑ j, A i j * B i j

/-- The derivative parts. -/
def gradients (A : MatD ℝ) : M3 := fun i j => (A i j).gradient

/-- Derivative of the stress in the direction `V`, as the code returns it. -/
def tangent (P : Params) (st : State) (H V : M3) : Option M3 :=
  (updateD P st fun i j => (⟨H i j, V i j⟩ : Dual ℝ)).map fun r => gradients r.1

theorem inner_comm (A B : M3) : inner A B = inner B A := by
  simp only [inner, mul_comm]

theorem inner_dev (A B : M3) : inner (deviator A) B = inner (deviator A) (deviator B) := by
  simp only [inner, deviator, Fin.sum_univ_three, Matrix.sub_apply, Matrix.smul_apply, smul_eq_mul, Matrix.trace, Matrix.diag_apply, Matrix.one_apply]
  simp
  ring

theorem inner_strain (A B : M3) (h : Aᵀ = A) : inner A B = inner A (strain B) := by
  have h' : ∀ i j, A i j = A j i := fun i j => congrFun (congrFun h.symm i) j
  simp only [inner, strain, Fin.sum_univ_three, Matrix.smul_apply, Matrix.add_apply, Matrix.transpose_apply, smul_eq_mul]
  rw [h' 1 0, h' 2 0, h' 2 1]
  ring

section form
variable (P : Params) (st : State) (H V : M3)

/-- The argument with which `tangent` calls the material. -/
def dir : MatD ℝ := fun i j => ⟨H i j, V i j⟩

/-- Read a number as multiplication by it. -/
def φ₁ : ℝ →ₗ[ℝ] (ℝ →L[ℝ] ℝ) where
  toFun g := ContinuousLinearMap.toSpanSingleton ℝ g
  map_add' a b := by ext; simp
  map_smul' c a := by ext; simp

theorem rep_dir : RepM φ₁ 0 (dir H V) fun t => (H + t • V : M3) := by
  intro i j
  refine ⟨by simp [dir], ?_⟩
  have : HasDerivAt (fun t : ℝ => (H + t • V : M3) i j) (V i j) 0 := by
    have h1 : HasDerivAt (fun t : ℝ => H i j + t * V i j) (0 + 1 * V i j) 0 := (hasDerivAt_const _ _).add ((hasDerivAt_id 0).mul_const _)
    simpa using h1
  exact this.hasFDerivAt

theorem grad_el (i j : Fin 3) : ((symD (dir H V) i j).subR (st.plasticStrain i j)).gradient = strain V i j := by
  simp only [symD, dir, Dual.subR, Dual.mulL, Dual.add, strain, Matrix.smul_apply, Matrix.add_apply, Matrix.transpose_apply, smul_eq_mul]

theorem grad_p : (predictorD P st (dir H V)).1.gradient = bulk P * (strain V).trace := by
  dsimp only [predictorD, Dual.mulL]
  rw [trD_eq]
  simp only [Dual.add, grad_el, zeroD, smul_eq_mul, zero_add, Matrix.trace, Fin.sum_univ_three, Matrix.diag_apply]

theorem grad_s (i j : Fin 3) : ((predictorD P st (dir H V)).2.1 i j).gradient = 2 * shear P * deviator (strain V) i j := by
  dsimp only [predictorD, Dual.mulL]
  rw [devD_eq, trD_eq]
  by_cases h : i = j
  · subst h
    simp only [if_true, Dual.sub, Dual.add, Dual.divR, grad_el, zeroD, smul_eq_mul, zero_add, deviator, Matrix.sub_apply, Matrix.smul_apply, Matrix.one_apply_eq,
      Matrix.trace, Fin.sum_univ_three, Matrix.diag_apply]
    ring
  · simp only [if_neg h, grad_el, deviator, Matrix.sub_apply, Matrix.smul_apply, Matrix.one_apply_ne h, smul_eq_mul, mul_zero, sub_zero]

theorem grad_eta (i j : Fin 3) : ((predictorD P st (dir H V)).2.2.1 i j).gradient = 2 * shear P * deviator (strain V) i j := grad_s P st H V i j

theorem val_eta (i j : Fin 3) : ((predictorD P st (dir H V)).2.2.1 i j).value = rel P st H i j := by
  have := (rep_eta P st (rep_dir H V) i j).1
  simpa using this

theorem rel_symm {P : Params} {st : State} (hst : Adm st) (H : M3) : (rel P st H)ᵀ = rel P st H :=
  symm_eta P _ _ (by rw [el, Matrix.transpose_sub, strain_symm, hst.symm]) hst.symm

theorem normal_symm {P : Params} (hP : Good P) {st : State} (hst : Adm st) (H : M3) : (normal P st H)ᵀ = normal P st H := by
  rw [normal_eq hP, Matrix.transpose_smul, rel_symm hst]

theorem normal_dev {P : Params} (hP : Good P) {st : State} (hst : Adm st) (H : M3) : deviator (normal P st H) = normal P st H := by
  rw [normal_eq hP, deviator_smul, rel, deviator_of_traceless (trace_eta P _ _ hst.trace)]

/-- Contracting the normal sees the deviatoric strain only. -/
theorem inner_normal {P : Params} (hP : Good P) {st : State} (hst : Adm st) (H V : M3) :
    inner (normal P st H) V = inner (normal P st H) (deviator (strain V)) := by
  rw [inner_strain _ _ (normal_symm hP hst H), ← normal_dev hP hst H, inner_dev]

theorem grad_q {P : Params} (hP : Good P) {st : State} (hst : Adm st) (H V : M3) (h0 : 0 < trialMises P st H) :
    (predictorD P st (dir H V)).2.2.2.gradient = 2 * shear P * inner (normal P st H) V := by
  have hv := val_eta P st H V
  have hg := grad_eta P st H V
  have hq : (predictorD P st (dir H V)).2.2.2 = .mulL (Real.sqrt (3 / 2)) (normD (predictorD P st (dir H V)).2.2.1) := rfl
  rw [hq, normD, sqNormD_eq]
  generalize (predictorD P st (dir H V)).2.2.1 = η at hv hg
  rw [inner_normal hP hst]
  have hm := trialMises_eq hP st H
  have hn : normal P st H = (3 / 2 / trialMises P st H) • rel P st H := normal_eq hP st H
  have e1 : inner (normal P st H) (deviator (strain V)) = 3 / 2 / trialMises P st H * inner (rel P st H) (deviator (strain V)) := by
    rw [hn]
    simp only [inner, Matrix.smul_apply, smul_eq_mul, Finset.mul_sum, mul_assoc]
  rw [e1]
  simp only [Dual.mulL, Dual.sqrt, Dual.add, Dual.mul, hv, hg, zeroD, smul_eq_mul, zero_add]
  have hs : Real.sqrt (rel P st H 0 0 * rel P st H 0 0 + rel P st H 0 1 * rel P st H 0 1 + rel P st H 0 2 * rel P st H 0 2 + rel P st H 1 0 * rel P st H 1 0 +
      rel P st H 1 1 * rel P st H 1 1 + rel P st H 1 2 * rel P st H 1 2 + rel P st H 2 0 * rel P st H 2 0 + rel P st H 2 1 * rel P st H 2 1 +
      rel P st H 2 2 * rel P st H 2 2) = frob (rel P st H) := by
    rw [frob]
    congr 1
    simp only [Fin.sum_univ_three]
    ring
  rw [hs]
  have h32 : Real.sqrt (3 / 2) * Real.sqrt (3 / 2) = 3 / 2 := Real.mul_self_sqrt (by norm_num)
  have hF : frob (rel P st H) ≠ 0 := fun h => by rw [hm, h, mul_zero] at h0; exact lt_irrefl _ h0
  have ha : Real.sqrt (3 / 2) ≠ 0 := fun h => by rw [hm, h, zero_mul] at h0; exact lt_irrefl _ h0
  rw [hm]
  have e2 : 3 / 2 / (Real.sqrt (3 / 2) * frob (rel P st H)) = Real.sqrt (3 / 2) / frob (rel P st H) := by
    rw [div_eq_div_iff (mul_ne_zero ha hF) hF]
    linear_combination (-frob (rel P st H)) * h32
  rw [e2]
  simp only [inner, Fin.sum_univ_three]
  field_simp
  ring

/-- **C60, elastic tangent**: Hooke's law, also on the surface itself. -/
theorem C60_elastic_form {P : Params} (hP : Good P) {st : State} (H V : M3) (hin : trialMises P st H - P.Y st.eqps ≤ tol * P.sigmaY) :
    tangent P st H V = some (hooke P (strain V)) := by
  have hq := qvalue_eq hP st (rep_dir H V)
  have : updateD P st (dir H V) = some (fun i j => ((predictorD P st (dir H V)).2.1 i j).add ((Dual.mulL 1 (predictorD P st (dir H V)).1).mulR
      (if i = j then 1 else 0)), st) := by
    unfold updateD
    rw [if_neg (nu_ok hP)]
    dsimp only
    rw [if_neg]
    rw [hq, J2.residual]
    simp only [mul_zero, sub_zero, add_zero, gt_iff_lt, not_lt, zero_smul]
    exact hin
  change (updateD P st (dir H V)).map _ = _
  rw [this, Option.map_some, hooke_eq hP]
  congr 1
  funext i j
  dsimp only [gradients]
  simp only [Dual.add, Dual.mulR, Dual.mulL, grad_s, grad_p, smul_eq_mul, Matrix.add_apply, Matrix.smul_apply, Matrix.one_apply]
  ring

/-- **C60, plastic tangent.**  Its action in closed form, with `q` the trial equivalent stress, `N` the flow direction, `δ` the increment, `a` the slope of the yield
    condition. -/
theorem C60_plastic_form {P : Params} (hP : Good P) {st st' : State} (hst : Adm st) {H S : M3} {r : ScalarSolver.Result}
    (hu : update P st H = some (S, st', some r)) (V : M3) :
    ∃ T, tangent P st H V = some T ∧ ∀ W, inner T W = bulk P * V.trace * W.trace +
      (2 * shear P - 6 * shear P ^ 2 * r.x / trialMises P st H) * inner (deviator (strain V)) (deviator (strain W)) +
      4 * shear P ^ 2 * (r.x / trialMises P st H - 1 / (3 * shear P + P.Hk + P.dY (st.eqps + r.x))) *
        inner (normal P st H) V * inner (normal P st H) W := by
  have hrep := rep_dir H V
  have hz : (H + (0 : ℝ) • V : M3) = H := by simp
  obtain ⟨h1, -, h3, -, -, h6, -, -, h9⟩ := plastic_step hP hst hrep (by rw [hz]; exact hu)
  rw [hz] at h1
  have hq := qvalue_eq hP st hrep
  rw [hz] at hq
  refine ⟨gradients (plasticD P st (dir H V) r), ?_, fun W => ?_⟩
  · change (updateD P st (dir H V)).map _ = _
    rw [h9, Option.map_some]
  have hgq := grad_q hP hst H V h1
  have hn : ∀ i j, rel P st H i j = 2 / 3 * trialMises P st H * normal P st H i j := by
    intro i j
    rw [normal_eq hP, Matrix.smul_apply, smul_eq_mul]
    field_simp
  have hentry : ∀ i j, (plasticD P st (dir H V) r i j).gradient =
      (2 * shear P - 6 * shear P ^ 2 * r.x / trialMises P st H) * deviator (strain V) i j +
      4 * shear P ^ 2 * (r.x / trialMises P st H - 1 / (3 * shear P + P.Hk + P.dY (st.eqps + r.x))) * inner (normal P st H) V * normal P st H i j +
      bulk P * (strain V).trace * (1 : M3) i j := by
    intro i j
    have hd : 3 * shear P + P.Hk + P.dY (st.eqps + r.x) ≠ 0 := by
      have := hP.deriv (st.eqps + r.x) (by linarith [hst.eqps])
      linarith [hP.Hk, shear_pos hP]
    have hdf : (r.dfdx)⁻¹ = -(1 / (3 * shear P + P.Hk + P.dY (st.eqps + r.x))) := by
      rw [h6, one_div, ← inv_neg]
      congr 1
      ring
    simp only [plasticD, rootD, Dual.add, Dual.sub, Dual.mul, Dual.mulL, Dual.mulR, Dual.div, Dual.subR, grad_s, grad_p, grad_eta, val_eta, smul_eq_mul, hgq, hq,
      hn, Matrix.one_apply, hdf]
    by_cases hij : i = j
    · simp only [hij, if_true]
      field_simp
      ring
    · simp only [if_neg hij]
      field_simp
      ring
  have hs : ∀ c d e : ℝ, ∀ A B : M3, (∀ i j, (plasticD P st (dir H V) r i j).gradient = c * A i j + d * B i j + e * (1 : M3) i j) →
      inner (gradients (plasticD P st (dir H V) r)) W = c * inner A W + d * inner B W + e * W.trace := by
    intro c d e A B hc
    simp only [inner, gradients, hc, Fin.sum_univ_three, Matrix.one_apply, Matrix.trace, Matrix.diag_apply]
    simp
    ring
  rw [hs _ _ _ _ _ hentry]
  have ht : (strain V).trace = V.trace := by
    rw [strain, Matrix.trace_smul, Matrix.trace_add, Matrix.trace_transpose, smul_eq_mul]
    ring
  have hdv : (deviator (strain V))ᵀ = deviator (strain V) := by
    rw [deviator, Matrix.transpose_sub, Matrix.transpose_smul, Matrix.transpose_one, strain_symm]
  rw [ht, inner_strain _ W hdv, inner_dev (strain V) (strain W)]
  ring

/-- **C60, symmetry.**  Elastic or plastic, converged or not: the tangent is a symmetric bilinear form (so that assembled stiffness matrices are symmetric). -/
theorem C60_symmetric {P : Params} (hP : Good P) {st : State} (hst : Adm st) (H V W : M3) :
    ∃ TV TW, tangent P st H V = some TV ∧ tangent P st H W = some TW ∧ inner TV W = inner TW V := by
  obtain ⟨S, st', r, hu⟩ := C32_defined hP hst H
  cases r with
  | none =>
    have hin : trialMises P st H - P.Y st.eqps ≤ tol * P.sigmaY := by
      rcases update_cases hP hst H with ⟨h, -⟩ | ⟨r, -, -, -, -, -, h⟩
      · rw [J2.residual, mul_zero, sub_zero, add_zero] at h
        rw [trialMises_eq hP]
        exact h
      · rw [h] at hu
        cases hu
    refine ⟨_, _, C60_elastic_form hP H V hin, C60_elastic_form hP H W hin, ?_⟩
    have key : ∀ V W : M3, inner (hooke P (strain V)) W =
        2 * shear P * inner (deviator (strain V)) (deviator (strain W)) + bulk P * V.trace * W.trace := by
      intro V W
      have ht : (strain V).trace = V.trace := by
        rw [strain, Matrix.trace_smul, Matrix.trace_add, Matrix.trace_transpose, smul_eq_mul]
        ring
      have hdv : (deviator (strain V))ᵀ = deviator (strain V) := by
        rw [deviator, Matrix.transpose_sub, Matrix.transpose_smul, Matrix.transpose_one, strain_symm]
      rw [← inner_dev, ← inner_strain _ W hdv, hooke_eq hP, ht]
      simp only [inner, Matrix.add_apply, Matrix.smul_apply, smul_eq_mul, Fin.sum_univ_three, Matrix.one_apply, Matrix.trace, Matrix.diag_apply]
      simp
      ring
    rw [key, key, inner_comm]
    ring
  | some r =>
    obtain ⟨TV, h1, h2⟩ := C60_plastic_form hP hst hu V
    obtain ⟨TW, h3, h4⟩ := C60_plastic_form hP hst hu W
    refine ⟨TV, TW, h1, h3, ?_⟩
    rw [h2, h4, inner_comm (deviator (strain V))]
    ring

theorem inner_normal_self {P : Params} (hP : Good P) {st : State} (H : M3) (h0 : 0 < trialMises P st H) :
    inner (normal P st H) (normal P st H) = 3 / 2 := by
  have hm := trialMises_eq hP st H
  have hsq : trialMises P st H ^ 2 = 3 / 2 * inner (rel P st H) (rel P st H) := by
    rw [hm, mul_pow, Real.sq_sqrt (by norm_num), frob, Real.sq_sqrt (by positivity)]
    simp only [inner, sq]
  rw [normal_eq hP]
  have : inner ((3 / 2 / trialMises P st H) • rel P st H) ((3 / 2 / trialMises P st H) • rel P st H) =
      (3 / 2 / trialMises P st H) ^ 2 * inner (rel P st H) (rel P st H) := by
    simp only [inner, Matrix.smul_apply, smul_eq_mul, Finset.mul_sum]
    refine Finset.sum_congr rfl fun i _ => Finset.sum_congr rfl fun j _ => ?_
    ring
  rw [this, div_pow, hsq]
  have : inner (rel P st H) (rel P st H) ≠ 0 := fun h => by
    rw [h, mul_zero] at hsq
    exact h0.ne' (by nlinarith)
  field_simp

theorem inner_self_nonneg (A : M3) : 0 ≤ inner A A := Finset.sum_nonneg fun _ _ => Finset.sum_nonneg fun _ _ => mul_self_nonneg _

/-- Cauchy-Schwarz with the normal. -/
theorem normal_le {P : Params} (hP : Good P) {st : State} (H : M3) (h0 : 0 < trialMises P st H) (A : M3) :
    inner (normal P st H) A ^ 2 ≤ 3 / 2 * inner A A := by
  have hN := inner_normal_self hP H h0
  set N := normal P st H
  set a := inner N A with ha
  have h := inner_self_nonneg (A - (2 / 3 * a) • N)
  have e : inner (A - (2 / 3 * a) • N) (A - (2 / 3 * a) • N) = inner A A - 2 * (2 / 3 * a) * inner N A + (2 / 3 * a) ^ 2 * inner N N := by
    simp only [inner, Fin.sum_univ_three, Matrix.sub_apply, Matrix.smul_apply, smul_eq_mul]
    ring
  rw [e, hN, ← ha] at h
  nlinarith

/-- **C60, stability.**  With non-negative bulk modulus the plastic tangent is positive semidefinite; with positive bulk modulus and hardening it vanishes only for
    directions without strain.  This holds for every increment the solver may return, converged or not. -/
theorem C60_positive {P : Params} (hP : Good P) (hK : 0 ≤ bulk P) {st st' : State} (hst : Adm st) {H S : M3} {r : ScalarSolver.Result}
    (hu : update P st H = some (S, st', some r)) (V : M3) :
    ∃ T, tangent P st H V = some T ∧ 0 ≤ inner T V ∧
      (0 < bulk P → 0 < P.Hk + P.dY (st.eqps + r.x) → 0 < P.Y st.eqps → inner T V = 0 → strain V = 0) := by
  obtain ⟨T, h1, h2⟩ := C60_plastic_form hP hst hu V
  have hz : (H + (0 : ℝ) • V : M3) = H := by simp
  obtain ⟨g1, g2, g3, g4, -, -, -, -, -⟩ := plastic_step hP hst (rep_dir H V) (by rw [hz]; exact hu)
  rw [hz] at g1 g2 g4
  refine ⟨T, h1, ?_⟩
  have hG := shear_pos hP
  have hY := hP.nonneg st.eqps hst.eqps
  have hd := hP.deriv (st.eqps + r.x) (by linarith [hst.eqps])
  rw [h2 V]
  have hCS := normal_le hP H g1 (deviator (strain V))
  rw [← inner_normal hP hst] at hCS
  have hD := inner_self_nonneg (deviator (strain V))
  set a := inner (normal P st H) V
  set D := inner (deviator (strain V)) (deviator (strain V)) with hDdef
  set q := trialMises P st H
  set κ := 3 * shear P + P.Hk + P.dY (st.eqps + r.x) with hκ
  have hκp : 0 < κ := by rw [hκ]; linarith [hP.Hk]
  have h3G : 3 * shear P * r.x ≤ q - P.Y st.eqps := by nlinarith [hP.Hk]
  have hc1 : 2 * shear P - 6 * shear P ^ 2 * r.x / q = 2 * shear P * ((q - 3 * shear P * r.x) / q) := by
    field_simp
    ring
  have hc1n : 0 ≤ 2 * shear P - 6 * shear P ^ 2 * r.x / q := by
    rw [hc1]
    exact mul_nonneg (by linarith) (div_nonneg (by linarith) g1.le)
  have hsum : bulk P * V.trace * V.trace + (2 * shear P - 6 * shear P ^ 2 * r.x / q) * D +
      4 * shear P ^ 2 * (r.x / q - 1 / κ) * a * a = bulk P * V.trace ^ 2 + (2 * shear P - 6 * shear P ^ 2 * r.x / q) * (D - 2 / 3 * a ^ 2) +
      4 * shear P / 3 * ((κ - 3 * shear P) / κ) * a ^ 2 := by
    field_simp
    ring
  have hDa : 0 ≤ D - 2 / 3 * a ^ 2 := by linarith
  have hκ3 : 0 ≤ κ - 3 * shear P := by rw [hκ]; linarith [hP.Hk]
  have t1 : 0 ≤ bulk P * V.trace ^ 2 := mul_nonneg hK (sq_nonneg _)
  have t2 : 0 ≤ (2 * shear P - 6 * shear P ^ 2 * r.x / q) * (D - 2 / 3 * a ^ 2) := mul_nonneg hc1n hDa
  have t3 : 0 ≤ 4 * shear P / 3 * ((κ - 3 * shear P) / κ) * a ^ 2 :=
    mul_nonneg (mul_nonneg (by linarith) (div_nonneg hκ3 hκp.le)) (sq_nonneg _)
  rw [hsum]
  refine ⟨by linarith, fun hKp hh hYp h0 => ?_⟩
  have z1 : bulk P * V.trace ^ 2 = 0 := by linarith
  have z2 : (2 * shear P - 6 * shear P ^ 2 * r.x / q) * (D - 2 / 3 * a ^ 2) = 0 := by linarith
  have z3 : 4 * shear P / 3 * ((κ - 3 * shear P) / κ) * a ^ 2 = 0 := by linarith
  have c1 : 0 < 2 * shear P - 6 * shear P ^ 2 * r.x / q := by
    rw [hc1]
    exact mul_pos (by linarith) (div_pos (by linarith) g1)
  have c3 : 0 < 4 * shear P / 3 * ((κ - 3 * shear P) / κ) := mul_pos (by linarith) (div_pos (by rw [hκ]; linarith) hκp)
  have ha0 : a ^ 2 = 0 := (mul_eq_zero.1 z3).resolve_left c3.ne'
  have hD0 : D = 0 := by
    have := (mul_eq_zero.1 z2).resolve_left c1.ne'
    rw [ha0] at this
    linarith
  have htr : V.trace = 0 := by
    have := (mul_eq_zero.1 z1).resolve_left hKp.ne'
    exact pow_eq_zero_iff (two_ne_zero) |>.1 this
  have hdz : deviator (strain V) = 0 := by
    funext i j
    have h1 : ∀ i ∈ Finset.univ, (∑ j, deviator (strain V) i j * deviator (strain V) i j) = 0 := by
      refine (Finset.sum_eq_zero_iff_of_nonneg fun _ _ => Finset.sum_nonneg fun _ _ => mul_self_nonneg _).1 ?_
      exact hD0
    have h2 := (Finset.sum_eq_zero_iff_of_nonneg fun j _ => mul_self_nonneg (deviator (strain V) i j)).1 (h1 i (Finset.mem_univ i)) j (Finset.mem_univ j)
    exact mul_self_eq_zero.1 h2
  have ht : (strain V).trace = V.trace := by
    rw [strain, Matrix.trace_smul, Matrix.trace_add, Matrix.trace_transpose, smul_eq_mul]
    ring
  rw [deviator_of_traceless (by rw [ht, htr])] at hdz
  exact hdz

end form

/-! ## Linear hardening -/

/-- A linear equation: the solver returns the exact root, except that the first bisection point is accepted if its residual is within the tolerance. -/
theorem solve_linear_value (r0 a Hi rtol : ℝ) (hr : 0 < r0) (ha : 0 < a) (hH : 0 ≤ Hi) (ht : 0 < rtol) :
    ∃ r, ScalarSolver.solve (fun d => r0 - (a + Hi) * d) (fun _ => -(a + Hi)) ⟨0, rtol, 25⟩ 0 0 (r0 / a) = .ok r ∧ r.converged = true ∧
      r.x = if 0 < Hi ∧ Hi < a ∧ (a - Hi) * (r0 / a) / 2 < rtol then r0 / (2 * a) else r0 / (a + Hi) := by
  have hab : 0 < a + Hi := by linarith
  set f : ℝ → ℝ := fun d => r0 - (a + Hi) * d with hf
  set f' : ℝ → ℝ := fun _ => -(a + Hi) with hf'
  have hhi : f (r0 / a) = -(Hi * (r0 / a)) := by
    rw [hf]
    dsimp only
    field_simp
    ring
  have hlo : f 0 = r0 := by simp [hf]
  have hu : 0 < r0 / a := div_pos hr ha
  unfold ScalarSolver.solve
  rw [if_neg (by
    rw [hhi, hlo, gt_iff_lt, not_lt]
    have : 0 ≤ r0 * (Hi * (r0 / a)) := by positivity
    linarith), if_neg (by rw [hlo]; exact hr.ne')]
  rw [hhi]
  by_cases h0 : -(Hi * (r0 / a)) = 0
  · rw [if_pos h0]
    have hz : Hi = 0 := by
      rcases mul_eq_zero.1 (neg_eq_zero.1 h0) with h | h
      · exact h
      · exact absurd h hu.ne'
    refine ⟨_, rfl, rfl, ?_⟩
    rw [if_neg (by rw [hz]; simp), hz, add_zero]
  rw [if_neg h0]
  have hHi : 0 < Hi := lt_of_le_of_ne hH fun h => h0 (by rw [← h]; ring)
  have hstart : ScalarSolver.start f f' 0 0 (r0 / a) = ⟨0, r0 / a, 0, r0 / a, r0 / a, r0, -(a + Hi), 0, false⟩ := by
    simp [ScalarSolver.start, hf, hf', hr, abs_of_pos hu, not_lt.2 hu.le]
  -- a Newton step from any state is exact
  have newton : ∀ s : ScalarSolver.St, s.fval = f s.x → s.dfdx = -(a + Hi) → ¬ ScalarSolver.useBisection s →
      ∃ s', ScalarSolver.body f f' ⟨0, rtol, 25⟩ s = some s' ∧ s'.converged = true ∧ s'.x = r0 / (a + Hi) := by
    intro s h1 h2 h3
    unfold ScalarSolver.body
    rw [if_neg h3, if_neg (by rw [h2]; linarith)]
    have hx : s.x - s.fval / s.dfdx = r0 / (a + Hi) := by
      rw [h1, h2, hf]
      dsimp only
      field_simp
      ring
    refine ⟨_, rfl, ?_, hx⟩
    have : f (s.x - s.fval / s.dfdx) = 0 := by
      rw [hx, hf]
      dsimp only
      field_simp
      ring
    simp only [ScalarSolver.finish, this, abs_zero, ht, decide_true, Bool.or_true]
  have hdone : ∀ k s, s.converged = true → ScalarSolver.loop f f' ⟨0, rtol, 25⟩ k s = some s := by
    intro k s hs
    cases k <;> simp [ScalarSolver.loop, hs]
  rw [hstart]
  have hiff : ScalarSolver.useBisection ⟨0, r0 / a, 0, r0 / a, r0 / a, r0, -(a + Hi), 0, false⟩ ↔ Hi < a := by
    unfold ScalarSolver.useBisection
    dsimp only
    have h4 : a * (r0 / a) = r0 := mul_div_cancel₀ _ ha.ne'
    constructor
    · intro hb
      by_contra hge
      push Not at hge
      rcases hb with h | h | h
      · linarith
      · have : (0 - r0 / a) * -(a + Hi) - r0 = Hi * (r0 / a) := by linear_combination h4
        rw [this] at h
        linarith [mul_pos hHi hu]
      · rw [abs_of_pos (by linarith), abs_mul, abs_neg, abs_of_pos hu, abs_of_pos hab] at h
        have h5 : a * (r0 / a) ≤ Hi * (r0 / a) := mul_le_mul_of_nonneg_right hge hu.le
        linarith
    · intro hl
      right
      right
      rw [abs_of_pos (by linarith), abs_mul, abs_neg, abs_of_pos hu, abs_of_pos hab]
      have h5 : Hi * (r0 / a) < a * (r0 / a) := mul_lt_mul_of_pos_right hl hu
      linarith
  by_cases hlt : Hi < a
  · -- bisection first
    have hb := hiff.2 hlt
    have hx1 : r0 / a + 1 / 2 * (0 - r0 / a) = r0 / a / 2 := by ring
    have hfx : f (r0 / a / 2) = (a - Hi) * (r0 / a) / 2 := by
      rw [hf]
      dsimp only
      field_simp
      ring
    have hfpos : 0 < f (r0 / a / 2) := by
      rw [hfx]
      have : 0 < a - Hi := by linarith
      positivity
    have hbody : ScalarSolver.body f f' ⟨0, rtol, 25⟩ ⟨0, r0 / a, 0, r0 / a, r0 / a, r0, -(a + Hi), 0, false⟩ =
        some (ScalarSolver.finish f f' ⟨0, rtol, 25⟩ ⟨0, r0 / a, 0, r0 / a, r0 / a, r0, -(a + Hi), 0, false⟩ (1 / 2 * (0 - r0 / a))
          (r0 / a + 1 / 2 * (0 - r0 / a)) (decide (r0 / a + 1 / 2 * (0 - r0 / a) = r0 / a))) := by
      unfold ScalarSolver.body
      rw [if_pos hb]
    rw [ScalarSolver.loop, if_neg (by simp), hbody, Option.bind_some]
    generalize hs1 : ScalarSolver.finish f f' ⟨0, rtol, 25⟩ ⟨0, r0 / a, 0, r0 / a, r0 / a, r0, -(a + Hi), 0, false⟩ (1 / 2 * (0 - r0 / a))
          (r0 / a + 1 / 2 * (0 - r0 / a)) (decide (r0 / a + 1 / 2 * (0 - r0 / a) = r0 / a)) = s1
    have e1 : s1.x = r0 / a / 2 := by rw [← hs1, ← hx1]; rfl
    have hconv : s1.converged = true ↔ (a - Hi) * (r0 / a) / 2 < rtol := by
      have hne : ¬ (r0 / a / 2 = r0 / a) := by
        intro h
        linarith
      have habs : ¬ |1 / 2 * (0 - r0 / a)| < 0 := not_lt.2 (abs_nonneg _)
      rw [← hs1]
      simp only [ScalarSolver.finish, hx1, decide_eq_false hne, decide_eq_false habs, Bool.or_false, Bool.false_or, decide_eq_true_eq, abs_of_pos hfpos]
      rw [hfx]
    by_cases hc : s1.converged = true
    · rw [hdone _ _ hc]
      refine ⟨_, rfl, hc, ?_⟩
      rw [if_pos ⟨hHi, hlt, hconv.1 hc⟩]
      dsimp only
      rw [e1]
      field_simp
    · have e2 : s1.xl = r0 / a := by
        rw [← hs1]
        simp only [ScalarSolver.finish, hx1, if_neg (not_lt.2 hfpos.le)]
      have e3 : s1.xh = r0 / a / 2 := by
        rw [← hs1]
        simp only [ScalarSolver.finish, hx1, if_neg (not_lt.2 hfpos.le)]
      have e4 : s1.deltaXOld = r0 / a := by rw [← hs1]; rfl
      have e5 : s1.fval = f (r0 / a / 2) := by rw [← hs1, ← hx1]; rfl
      have e6 : s1.dfdx = -(a + Hi) := by rw [← hs1]; rfl
      obtain ⟨s2, h2, h3, h4⟩ := newton s1 (by rw [e5, e1]) e6 (by
        unfold ScalarSolver.useBisection
        rw [e1, e2, e3, e4, e5, e6]
        push Not
        refine ⟨by rw [sub_self, zero_mul]; linarith, ?_, ?_⟩
        · rw [hfx]
          have : (r0 / a / 2 - r0 / a) * -(a + Hi) - (a - Hi) * (r0 / a) / 2 = Hi * (r0 / a) := by ring
          rw [this]
          positivity
        · rw [abs_of_pos (by linarith), abs_mul, abs_neg, abs_of_pos hu, abs_of_pos hab, hfx]
          have : 0 < Hi * (r0 / a) := by positivity
          linarith)
      rw [ScalarSolver.loop, if_neg hc, h2, Option.bind_some, hdone _ _ h3]
      refine ⟨_, rfl, h3, ?_⟩
      rw [if_neg fun h => hc (hconv.2 h.2.2)]
      exact h4
  · obtain ⟨s2, h2, h3, h4⟩ := newton _ (by simp [hf]) rfl fun h => hlt (hiff.1 h)
    rw [ScalarSolver.loop, if_neg (by simp), h2, Option.bind_some, hdone _ _ h3]
    refine ⟨_, rfl, h3, ?_⟩
    rw [if_neg fun h => hlt h.2.1]
    exact h4

/-- The plain update in terms of the specification. -/
theorem update_plastic {P : Params} (hP : Good P) {st : State} (hst : Adm st) (H : M3) (hout : tol * P.sigmaY < trialMises P st H - P.Y st.eqps) :
    ∃ st' r, update P st H = some (hooke P (strain H - (st.plasticStrain + r.x • normal P st H)), st', some r) ∧
      ScalarSolver.solve (J2.residual P st.eqps (trialMises P st H)) (dresidual P st.eqps) ⟨0, tol * P.sigmaY, 25⟩ 0 0
        ((trialMises P st H - P.Y st.eqps) / (3 * shear P + P.Hk)) = .ok r := by
  have e : Real.sqrt (3 / 2) * frob (eta P (strain H - st.plasticStrain) st.plasticStrain) = trialMises P st H := (trialMises_eq hP st H).symm
  rcases update_cases hP hst H with ⟨h, -⟩ | ⟨r, h1, h2, h3, h4, h5, h6⟩
  · rw [e, J2.residual, mul_zero, sub_zero, add_zero] at h
    linarith
  · rw [e] at h5 h6
    have es : strain H - st.plasticStrain - (r.x * (3 / 2) / trialMises P st H) • eta P (strain H - st.plasticStrain) st.plasticStrain =
        strain H - (st.plasticStrain + r.x • normal P st H) := by
      rw [normal_eq hP, smul_smul, sub_sub, mul_div_assoc]
      rfl
    rw [es] at h6
    exact ⟨_, r, h6, h5⟩

/-- Linear hardening: the increment the code computes. -/
theorem linear_step {P : Params} (hP : Good P) {Hi : ℝ} (hH : 0 ≤ Hi) (hY : P.Y = linearHardening P.sigmaY Hi) (hdY : P.dY = fun _ => Hi) {st : State} (hst : Adm st)
    (H : M3) (hout : tol * P.sigmaY < trialMises P st H - P.Y st.eqps) :
    ∃ st' r, update P st H = some (hooke P (strain H - (st.plasticStrain + r.x • normal P st H)), st', some r) ∧ r.converged = true ∧
      r.x = if 0 < Hi ∧ Hi < 3 * shear P + P.Hk ∧
          (3 * shear P + P.Hk - Hi) * ((trialMises P st H - P.Y st.eqps) / (3 * shear P + P.Hk)) / 2 < tol * P.sigmaY
        then (trialMises P st H - P.Y st.eqps) / (2 * (3 * shear P + P.Hk)) else (trialMises P st H - P.Y st.eqps) / (3 * shear P + P.Hk + Hi) := by
  obtain ⟨st', r, h1, h2⟩ := update_plastic hP hst H hout
  have hG := shear_pos hP
  have htol : 0 < tol * P.sigmaY := mul_pos (by norm_num [tol]) hP.sigmaY
  refine ⟨st', r, h1, ?_⟩
  generalize trialMises P st H = q at h2 hout ⊢
  obtain ⟨r2, g1, g2, g3⟩ := solve_linear_value (q - P.Y st.eqps) (3 * shear P + P.Hk) Hi (tol * P.sigmaY) (by linarith) (by linarith [hP.Hk]) hH htol
  have e1 : J2.residual P st.eqps q = fun d => (q - P.Y st.eqps) - ((3 * shear P + P.Hk) + Hi) * d := by
    funext d
    rw [J2.residual, hY, linearHardening, linearHardening]
    ring
  have e2 : dresidual P st.eqps = fun _ => -((3 * shear P + P.Hk) + Hi) := by
    funext d
    rw [dresidual, hdY]
    ring
  rw [e1, e2, g1] at h2
  cases h2
  exact ⟨g2, g3⟩

section linear
variable {φ : G →ₗ[ℝ] (E →L[ℝ] ℝ)} {x0 : E} {du : MatD G} {H : E → M3}

/-- **C60, linear hardening.**  Outside a band next to the yield surface (`C60_band_wrong`), and everywhere if there is no hardening or it exceeds `3G + Hk`, the
    derivative returned is the derivative of the stress the code computes. -/
theorem C60_linear_partial {P : Params} (hP : Good P) {Hi : ℝ} (hH : 0 ≤ Hi) (hY : P.Y = linearHardening P.sigmaY Hi) (hdY : P.dY = fun _ => Hi)
    {st : State} (hst : Adm st) (h : RepM φ x0 du H) (hout : tol * P.sigmaY < trialMises P st (H x0) - P.Y st.eqps)
    (hband : Hi = 0 ∨ 3 * shear P + P.Hk ≤ Hi ∨
      2 * (3 * shear P + P.Hk) * (tol * P.sigmaY) < (3 * shear P + P.Hk - Hi) * (trialMises P st (H x0) - P.Y st.eqps)) :
    ∃ (σ : MatD G) (st' : State) (S : E → M3), updateD P st du = some (σ, st') ∧
      (∀ᶠ x in 𝓝 x0, ∃ s r, update P st (H x) = some (S x, s, some r)) ∧ RepM φ x0 σ S := by
  have hc : 0 < 3 * shear P + P.Hk := by linarith [hP.Hk, shear_pos hP]
  have hcH : 0 < 3 * shear P + P.Hk + Hi := by linarith
  have hcont := continuousAt_trialMises hP st h
  set δ : E → ℝ := fun x => (trialMises P st (H x) - P.Y st.eqps) / (3 * shear P + P.Hk + Hi) with hδ
  have hout' : ∀ᶠ x in 𝓝 x0, tol * P.sigmaY < trialMises P st (H x) - P.Y st.eqps := (hcont.sub_const _).eventually_const_lt hout
  have hband' : ∀ᶠ x in 𝓝 x0, Hi = 0 ∨ 3 * shear P + P.Hk ≤ Hi ∨
      2 * (3 * shear P + P.Hk) * (tol * P.sigmaY) < (3 * shear P + P.Hk - Hi) * (trialMises P st (H x) - P.Y st.eqps) := by
    rcases hband with hb | hb | hb
    · exact Filter.Eventually.of_forall fun _ => Or.inl hb
    · exact Filter.Eventually.of_forall fun _ => Or.inr (Or.inl hb)
    · have := (continuousAt_const (y := 3 * shear P + P.Hk - Hi)).mul (hcont.sub_const (P.Y st.eqps)) |>.eventually_const_lt hb
      filter_upwards [this] with x hx
      exact Or.inr (Or.inr hx)
  have hstep : ∀ x, tol * P.sigmaY < trialMises P st (H x) - P.Y st.eqps → (Hi = 0 ∨ 3 * shear P + P.Hk ≤ Hi ∨
      2 * (3 * shear P + P.Hk) * (tol * P.sigmaY) < (3 * shear P + P.Hk - Hi) * (trialMises P st (H x) - P.Y st.eqps)) →
      ∃ s r, update P st (H x) = some (hooke P (strain (H x) - (st.plasticStrain + δ x • normal P st (H x))), s, some r) ∧ r.x = δ x := by
    intro x h1 h2
    obtain ⟨s, r, g1, -, g3⟩ := linear_step hP hH hY hdY hst (H x) h1
    rw [if_neg] at g3
    · exact ⟨s, r, by rw [g1, g3], g3⟩
    · rintro ⟨b1, b2, b3⟩
      rcases h2 with h2 | h2 | h2
      · exact b1.ne' h2
      · exact absurd b2 (not_lt.2 h2)
      · have : (3 * shear P + P.Hk - Hi) * ((trialMises P st (H x) - P.Y st.eqps) / (3 * shear P + P.Hk)) / 2 =
            ((3 * shear P + P.Hk - Hi) * (trialMises P st (H x) - P.Y st.eqps)) / (2 * (3 * shear P + P.Hk)) := by
          field_simp
        rw [this, div_lt_iff₀ (by linarith)] at b3
        linarith
  obtain ⟨s, r, hu, hr⟩ := hstep x0 hout hband
  obtain ⟨h1, h2, h3, h4, h5, h6, h7, h8, h9⟩ := plastic_step hP hst h hu
  refine ⟨_, s, fun x => hooke P (strain (H x) - (st.plasticStrain + δ x • normal P st (H x))), h9, ?_, ?_⟩
  · filter_upwards [hout', hband'] with x g1 g2
    obtain ⟨s, r, g3, -⟩ := hstep x g1 g2
    exact ⟨s, r, g3⟩
  · refine rep_plastic hP hst h h1.ne' (rep_root hP hst h hu (fun a _ => ?_) hr.symm (ρ := 0) ?_)
    · rw [hY, hdY]
      have : HasDerivAt (fun a : ℝ => P.sigmaY + Hi * a) (0 + Hi * 1) a := (hasDerivAt_const _ _).add ((hasDerivAt_id a).const_mul Hi)
      rw [zero_add, mul_one] at this
      exact this
    · have htol : 0 < tol * P.sigmaY := mul_pos (by norm_num [tol]) hP.sigmaY
      filter_upwards [hout'] with x hx
      refine ⟨div_nonneg (by linarith) hcH.le, ?_⟩
      have e : (3 * shear P + P.Hk + Hi) * δ x = trialMises P st (H x) - P.Y st.eqps := mul_div_cancel₀ _ hcH.ne'
      have e2 : P.Y (st.eqps + δ x) = P.Y st.eqps + Hi * δ x := by
        rw [hY, linearHardening, linearHardening]
        ring
      rw [e2]
      linarith

/-- **C60, violated next to the yield surface.**  With `0 < Hi < 3G + Hk` the solver accepts its first bisection point whenever the trial stress is outside the yield
    surface by less than `2 tol σy (3G + Hk) / (3G + Hk - Hi)`.  There the stress the code computes is differentiable, but the derivative it returns is another one,
    unless the trial equivalent stress is stationary. -/
theorem C60_band_wrong {P : Params} (hP : Good P) {Hi : ℝ} (hH : 0 < Hi) (hHc : Hi < 3 * shear P + P.Hk) (hY : P.Y = linearHardening P.sigmaY Hi)
    (hdY : P.dY = fun _ => Hi) {st : State} (hst : Adm st) (h : RepM φ x0 du H) (hout : tol * P.sigmaY < trialMises P st (H x0) - P.Y st.eqps)
    (hband : (3 * shear P + P.Hk - Hi) * (trialMises P st (H x0) - P.Y st.eqps) < 2 * (3 * shear P + P.Hk) * (tol * P.sigmaY)) :
    ∃ (σ : MatD G) (st' : State) (S : E → M3), updateD P st du = some (σ, st') ∧
      (∀ᶠ x in 𝓝 x0, ∃ s r, update P st (H x) = some (S x, s, some r)) ∧ (∀ i j, DifferentiableAt ℝ (fun x => S x i j) x0) ∧
      (RepM φ x0 σ S ↔ HasFDerivAt (fun x => trialMises P st (H x)) (0 : E →L[ℝ] ℝ) x0) := by
  have hG := shear_pos hP
  have hc : 0 < 3 * shear P + P.Hk := by linarith [hP.Hk]
  have hcont := continuousAt_trialMises hP st h
  set δ : E → ℝ := fun x => (trialMises P st (H x) - P.Y st.eqps) / (2 * (3 * shear P + P.Hk)) with hδ
  have hout' : ∀ᶠ x in 𝓝 x0, tol * P.sigmaY < trialMises P st (H x) - P.Y st.eqps := (hcont.sub_const _).eventually_const_lt hout
  have hband' : ∀ᶠ x in 𝓝 x0, (3 * shear P + P.Hk - Hi) * (trialMises P st (H x) - P.Y st.eqps) < 2 * (3 * shear P + P.Hk) * (tol * P.sigmaY) :=
    ((continuousAt_const (y := 3 * shear P + P.Hk - Hi)).mul (hcont.sub_const (P.Y st.eqps))).eventually_lt_const hband
  have hstep : ∀ x, tol * P.sigmaY < trialMises P st (H x) - P.Y st.eqps →
      (3 * shear P + P.Hk - Hi) * (trialMises P st (H x) - P.Y st.eqps) < 2 * (3 * shear P + P.Hk) * (tol * P.sigmaY) →
      ∃ s r, update P st (H x) = some (hooke P (strain (H x) - (st.plasticStrain + δ x • normal P st (H x))), s, some r) ∧ r.x = δ x := by
    intro x h1 h2
    obtain ⟨s, r, g1, -, g3⟩ := linear_step hP hH.le hY hdY hst (H x) h1
    rw [if_pos] at g3
    · exact ⟨s, r, by rw [g1, g3], g3⟩
    · refine ⟨hH, hHc, ?_⟩
      have : (3 * shear P + P.Hk - Hi) * ((trialMises P st (H x) - P.Y st.eqps) / (3 * shear P + P.Hk)) / 2 =
          ((3 * shear P + P.Hk - Hi) * (trialMises P st (H x) - P.Y st.eqps)) / (2 * (3 * shear P + P.Hk)) := by
        field_simp
      rw [this, div_lt_iff₀ (by linarith)]
      linarith
  obtain ⟨s, r, hu, hr⟩ := hstep x0 hout hband
  obtain ⟨h1, h2, h3, h4, h5, h6, h7, h8, h9⟩ := plastic_step hP hst h hu
  have hq := rep_q hP st h h1.ne'
  set qg := φ (predictorD P st du).2.2.2.gradient with hqg
  -- the derivative of the stress the code computes
  have hδd : HasFDerivAt δ ((2 * (3 * shear P + P.Hk))⁻¹ • qg) x0 := by
    have := (hq.2.sub_const (P.Y st.eqps)).mul_const (2 * (3 * shear P + P.Hk))⁻¹
    simpa only [hδ, div_eq_mul_inv] using this
  have hn : ∀ i j, Rep φ x0 ((Dual.mulL (3 / 2) ((predictorD P st du).2.2.1 i j)).div (predictorD P st du).2.2.2) fun x =>
      3 / 2 * rel P st (H x) i j / trialMises P st (H x) := fun i j => ((rep_eta P st h i j).mulL _).div hq h1.ne'
  set base : Fin 3 → Fin 3 → E →L[ℝ] ℝ := fun i j => φ ((predictorD P st du).2.1 i j).gradient + φ ((Dual.mulL 1 (predictorD P st du).1).mulR (if i = j then 1 else 0)).gradient
    - (2 * shear P * δ x0) • φ ((Dual.mulL (3 / 2) ((predictorD P st du).2.2.1 i j)).div (predictorD P st du).2.2.2).gradient with hbase
  have key : ∀ i j, HasFDerivAt (fun x => hooke P (strain (H x) - (st.plasticStrain + δ x • normal P st (H x))) i j)
      (base i j - (2 * shear P * (2 * (3 * shear P + P.Hk))⁻¹ * (3 / 2 * rel P st (H x0) i j / trialMises P st (H x0))) • qg) x0 := by
    intro i j
    have a1 := (rep_s P st h i j).2
    have a2 := (hδd.const_mul (2 * shear P)).mul (hn i j).2
    have a3 := (((rep_p P st h).mulL 1).mulR (if i = j then 1 else 0)).2
    have a4 := (a1.sub a2).add a3
    have e : (fun x => hooke P (strain (H x) - (st.plasticStrain + δ x • normal P st (H x))) i j) = fun x =>
        ((2 * shear P) • deviator (el st (H x))) i j - (2 * shear P * δ x) * (3 / 2 * rel P st (H x) i j / trialMises P st (H x)) +
        (1 * (bulk P * (el st (H x)).trace)) * (if i = j then 1 else 0) := by
      funext x
      rw [corrected_eq hP hst]
    rw [e]
    refine a4.congr_fderiv ?_
    rw [hbase]
    ext v
    simp only [sub_apply, add_apply, smul_apply, smul_eq_mul]
    ring
  have hgrad : ∀ i j, φ (plasticD P st du r i j).gradient =
      base i j - (2 * shear P * (3 * shear P + P.Hk + Hi)⁻¹ * (3 / 2 * rel P st (H x0) i j / trialMises P st (H x0))) • qg := by
    intro i j
    have hdf : (r.dfdx)⁻¹ = -(3 * shear P + P.Hk + Hi)⁻¹ := by
      rw [h6, hdY, ← inv_neg]
      congr 1
      ring
    have hv := (hn i j).1
    rw [hbase]
    simp only [plasticD, Dual.add, Dual.sub, Dual.mul]
    rw [hv]
    simp only [rootD, Dual.mulL, Dual.subR, map_add, map_sub, map_smul, map_neg, hdf, hr]
    ext v
    simp only [sub_apply, add_apply, smul_apply, smul_eq_mul, neg_apply]
    rw [hqg]
    ring
  refine ⟨_, s, fun x => hooke P (strain (H x) - (st.plasticStrain + δ x • normal P st (H x))), h9, ?_, fun i j => (key i j).differentiableAt, ?_⟩
  · filter_upwards [hout', hband'] with x g1 g2
    obtain ⟨s, r, g3, -⟩ := hstep x g1 g2
    exact ⟨s, r, g3⟩
  constructor
  · intro hrep
    -- some entry of the normal is not zero
    have hne : ∃ i j, rel P st (H x0) i j ≠ 0 := by
      by_contra hz
      push Not at hz
      rw [trialMises_eq hP, frob] at h1
      simp [hz] at h1
    obtain ⟨i, j, hij⟩ := hne
    have huniq := (hrep i j).2.unique (key i j)
    rw [hgrad i j] at huniq
    have hz : qg = 0 := by
      have e : (2 * shear P * ((2 * (3 * shear P + P.Hk))⁻¹ - (3 * shear P + P.Hk + Hi)⁻¹) * (3 / 2 * rel P st (H x0) i j / trialMises P st (H x0))) • qg = 0 := by
        ext v
        have := congrArg (fun L : E →L[ℝ] ℝ => L v) huniq
        simp only [sub_apply, smul_apply, smul_eq_mul, zero_apply] at this ⊢
        linear_combination this
      refine (smul_eq_zero.1 e).resolve_left ?_
      refine mul_ne_zero (mul_ne_zero (by linarith) ?_) (div_ne_zero (mul_ne_zero (by norm_num) hij) h1.ne')
      rw [sub_ne_zero]
      intro hh
      have := inv_injective hh
      linarith
    have := hq.2
    rw [← hqg, hz] at this
    exact this
  · intro h0 i j
    have hz : qg = 0 := hq.2.unique h0
    refine ⟨?_, ?_⟩
    · have := (plastic_step hP hst h hu).2.2.2.2.2.2.2.2
      have hv := congrArg (Option.map Prod.fst) (C60_value P st du)
      rw [this, value_eq h, hu] at hv
      simp only [Option.map_some] at hv
      exact congrFun (congrFun (Option.some.inj hv) i) j
    · rw [hgrad i j, hz, smul_zero]
      have := key i j
      rwa [hz, smul_zero] at this

end linear

/-! ### Examples -/

/-- Shear modulus 1, yield stress 1, hardening modulus 1, no kinematic hardening. -/
def Pe : Params := ⟨2, 0, 0, 1, linearHardening 1 1, fun _ => 1⟩

def ste : State := ⟨0, 0⟩

/-- Uniaxial isochoric strain. -/
def He (h : ℝ) : M3 := Matrix.diagonal ![h, -h / 2, -h / 2]

theorem good_Pe : Good Pe := (C32_laws ⟨by norm_num [Pe], by norm_num [Pe], by norm_num [Pe], by norm_num [Pe], by norm_num [Pe]⟩).1 1 (by norm_num) rfl rfl

theorem adm_ste : Adm ste := ⟨by simp [ste], by simp [ste], le_refl _⟩

theorem trial_e (h : ℝ) (hh : 0 ≤ h) : trialMises Pe ste (He h) = 3 * h := by
  have htr : (He h).trace = 0 := by
    simp [He, Matrix.trace, Fin.sum_univ_three]
    ring
  have hs : strain (He h) = He h := by
    rw [strain, He, Matrix.diagonal_transpose, ← two_smul ℝ, smul_smul]
    norm_num
  have h0 : ste.plasticStrain = (0 : M3) := rfl
  have hG : shear Pe = 1 := by norm_num [shear, Pe]
  have hr : rel Pe ste (He h) = (2 : ℝ) • He h := by
    rw [rel, el, hs, h0, sub_zero, eta, deviator_of_traceless htr, hG]
    simp
  have hf : ∑ i, ∑ j, ((2 : ℝ) • He h) i j ^ 2 = 6 * h ^ 2 := by
    simp [He, Fin.sum_univ_three, Matrix.diagonal_apply]
    ring
  rw [trialMises_eq good_Pe, hr, frob, hf, ← Real.sqrt_mul (by norm_num)]
  have : (3 / 2 * (6 * h ^ 2) : ℝ) = (3 * h) ^ 2 := by ring
  rw [this, Real.sqrt_sq (by linarith)]

theorem hard_e : ∀ a, 0 ≤ a → HasDerivAt Pe.Y (Pe.dY a) a := by
  intro a _
  have h1 : HasDerivAt (fun a : ℝ => 1 * a) (1 * 1) a := (hasDerivAt_id a).const_mul 1
  rw [mul_one] at h1
  exact h1.const_add 1

theorem step_e : ∃ S st' r, update Pe ste (He 1) = some (S, st', some r) ∧ r.converged = true := by
  have hY : Pe.Y ste.eqps = 1 := by norm_num [Pe, ste, linearHardening]
  have hs : Pe.sigmaY = 1 := rfl
  obtain ⟨st', r, h1, h2, -⟩ := linear_step good_Pe (Hi := 1) (by norm_num) rfl rfl adm_ste (He 1)
    (by rw [trial_e 1 (by norm_num), hY, hs]; norm_num [tol])
  exact ⟨_, st', r, h1, h2⟩

/-- The exact return mapping of the example. -/
example : ∃! σ, IsReturn Pe Pe.Y ste (He 1) σ := by
  have hY : Pe.Y ste.eqps = 1 := by norm_num [Pe, ste, linearHardening]
  refine C60_exact good_Pe (fun a b _ h => ?_) (fun a ha => (hard_e a ha).continuousAt.continuousWithinAt) adm_ste _
    (by rw [hY, trial_e 1 (by norm_num)]; norm_num)
  change 1 + 1 * a ≤ 1 + 1 * b
  linarith

/-- Elastic steps exist. -/
example (V : M3) : ∃ (σ : MatD ℝ) (S : ℝ → M3), updateD Pe ste (dir (He (1 / 4)) V) = some (σ, ste) ∧
    (∀ᶠ t in 𝓝 (0 : ℝ), update Pe ste (He (1 / 4) + t • V) = some (S t, ste, none)) ∧ RepM φ₁ 0 σ S := by
  have hz : (He (1 / 4) + (0 : ℝ) • V : M3) = He (1 / 4) := by simp
  have hY : Pe.Y ste.eqps = 1 := by norm_num [Pe, ste, linearHardening]
  have hs : Pe.sigmaY = 1 := rfl
  exact C60_elastic good_Pe (rep_dir (He (1 / 4)) V) (by rw [hz, trial_e _ (by norm_num), hY, hs]; norm_num [tol])

/-- Converged plastic steps exist; their tangent is the exact one, symmetric and definite. -/
example (V : M3) (hV : strain V ≠ 0) : ∃ (ρ : ℝ) (σ : MatD ℝ) (st' : State) (S' : ℝ → M3) (T : M3), |ρ| < tol ∧ updateD Pe ste (dir (He 1) V) = some (σ, st') ∧
    (∀ᶠ t in 𝓝 (0 : ℝ), IsReturn Pe (fun a => Pe.Y a + ρ) ste (He 1 + t • V) (S' t)) ∧ RepM φ₁ 0 σ S' ∧
    tangent Pe ste (He 1) V = some T ∧ 0 < inner T V := by
  obtain ⟨S, st', r, hu, hc⟩ := step_e
  have hz : (He 1 + (0 : ℝ) • V : M3) = He 1 := by simp
  obtain ⟨h1, σ, S', h2, -, h4, h5⟩ := C60_tangent_partial good_Pe adm_ste hard_e (rep_dir (He 1) V) (by rw [hz]; exact hu) hc
  obtain ⟨T, g1, g2, g3⟩ := C60_positive good_Pe (by norm_num [bulk, Pe]) adm_ste hu V
  have hs : Pe.sigmaY = 1 := rfl
  rw [hs, mul_one] at h1
  refine ⟨r.residual, σ, st', S', T, h1, h2, h4, h5, g1, lt_of_le_of_ne g2 fun h0 => hV ?_⟩
  exact g3 (by norm_num [bulk, Pe]) (by norm_num [Pe]) (by norm_num [Pe, ste, linearHardening]) h0.symm

/-- A plastic step well outside the yield surface, with its derivative in any direction. -/
example (V : M3) : ∃ (σ : MatD ℝ) (st' : State) (S : ℝ → M3), updateD Pe ste (dir (He 1) V) = some (σ, st') ∧
    (∀ᶠ t in 𝓝 (0 : ℝ), ∃ s r, update Pe ste (He 1 + t • V) = some (S t, s, some r)) ∧ RepM φ₁ 0 σ S := by
  have hz : (He 1 + (0 : ℝ) • V : M3) = He 1 := by simp
  have hG : shear Pe = 1 := by norm_num [shear, Pe]
  have hY : Pe.Y ste.eqps = 1 := by norm_num [Pe, ste, linearHardening]
  have hs : Pe.sigmaY = 1 := rfl
  have hk : Pe.Hk = 0 := rfl
  refine C60_linear_partial good_Pe (Hi := 1) (by norm_num) rfl rfl adm_ste (rep_dir (He 1) V) ?_ (Or.inr (Or.inr ?_))
  · rw [hz, trial_e 1 (by norm_num), hY, hs]
    norm_num [tol]
  · rw [hz, trial_e 1 (by norm_num), hY, hG, hs, hk]
    norm_num [tol]

/-- Just outside the yield surface the derivative in the loading direction is wrong. -/
example : ∃ (h : ℝ) (σ : MatD ℝ) (st' : State) (S : ℝ → M3), updateD Pe ste (dir (He h) (He 1)) = some (σ, st') ∧
    (∀ᶠ t in 𝓝 (0 : ℝ), ∃ s r, update Pe ste (He h + t • He 1) = some (S t, s, some r)) ∧ ¬ RepM φ₁ 0 σ S := by
  have htol : tol = 1 / 10 ^ 10 := rfl
  have hpos : (0 : ℝ) ≤ (1 + 2 * tol) / 3 := by rw [htol]; norm_num
  have hz : (He ((1 + 2 * tol) / 3) + (0 : ℝ) • He 1 : M3) = He ((1 + 2 * tol) / 3) := by simp
  have hG : shear Pe = 1 := by norm_num [shear, Pe]
  have hY : Pe.Y ste.eqps = 1 := by norm_num [Pe, ste, linearHardening]
  have hs : Pe.sigmaY = 1 := rfl
  have hk : Pe.Hk = 0 := rfl
  obtain ⟨σ, st', S, h1, h2, -, h4⟩ := C60_band_wrong good_Pe (Hi := 1) (by norm_num) (by rw [hG, hk]; norm_num) rfl rfl adm_ste
    (rep_dir (He ((1 + 2 * tol) / 3)) (He 1)) (by rw [hz, trial_e _ hpos, hY, hs, htol]; norm_num)
    (by rw [hz, trial_e _ hpos, hY, hG, hs, hk, htol]; norm_num)
  refine ⟨_, σ, st', S, h1, h2, fun hrep => ?_⟩
  have hd := h4.1 hrep
  have hadd : ∀ t : ℝ, (He ((1 + 2 * tol) / 3) + t • He 1 : M3) = He ((1 + 2 * tol) / 3 + t) := by
    intro t
    funext i j
    fin_cases i <;> fin_cases j <;> simp [He] <;> ring
  have he : HasDerivAt (fun t : ℝ => trialMises Pe ste (He ((1 + 2 * tol) / 3) + t • He 1)) 3 0 := by
    have h3 : HasDerivAt (fun t : ℝ => 3 * ((1 + 2 * tol) / 3 + t)) (3 * 1) 0 := ((hasDerivAt_id (0 : ℝ)).const_add _).const_mul 3
    rw [mul_one] at h3
    refine h3.congr_of_eventuallyEq ?_
    have hnear : ∀ᶠ t in 𝓝 (0 : ℝ), -(1 / 4) < t := eventually_gt_nhds (by norm_num)
    filter_upwards [hnear] with t ht
    rw [hadd, trial_e]
    rw [htol]
    norm_num
    linarith
  have := he.unique hd.hasDerivAt
  simp at this

end Serac.C60
