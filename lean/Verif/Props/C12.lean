import Verif.Model.Dual
import Mathlib.Analysis.SpecialFunctions.Pow.Deriv
import Mathlib.Analysis.SpecialFunctions.Sqrt
import Mathlib.Analysis.SpecialFunctions.Trigonometric.ArctanDeriv
import Mathlib.Analysis.SpecialFunctions.Trigonometric.InverseDeriv
import Mathlib.Analysis.SpecialFunctions.Complex.LogDeriv
import Mathlib.Analysis.Calculus.Deriv.Abs
import Mathlib.Analysis.Calculus.Deriv.Pi
/-!
# C12: dual-number arithmetic returns the true derivative

The specification is ordinary evaluation over the reals (`plain`) and Mathlib's Fréchet derivative (`HasFDerivAt`).
-/

noncomputable section
namespace Serac.C12
open Serac Num

/-- The value of an expression over the reals. -/
def plain {ι : Type} (x : ι → ℝ) : Expr ι → ℝ
  | .const c => c
  | .var i => x i
  | .un o a => std1 o (plain x a)
  | .bin o a b => std2 o (plain x a) (plain x b)

/-- Where the operation is differentiable (and the C++ function is defined). -/
def Good1 : Op1 → ℝ → Prop
  | .abs, x => x ≠ 0
  | .sqrt, x => 0 < x
  | .asin, x => -1 < x ∧ x < 1
  | .acos, x => -1 < x ∧ x < 1
  | .log, x => 0 < x
  | .log1p, x => -1 < x
  | _, _ => True

/-- Where the binary operation is differentiable.  `constR` says that the second operand does not depend on the variables (its C++ type is
`double`): then negative bases are allowed for integer exponents, and base 0 for exponents at least 1. -/
def Good2 (constR : Prop) : Op2 → ℝ → ℝ → Prop
  | .div, _, y => y ≠ 0
  | .max, x, y => x ≠ y
  | .min, x, y => x ≠ y
  | .atan2, y, x => 0 < x ∨ y ≠ 0
  | .pow, x, y => 0 < x ∨ (constR ∧ ((x ≠ 0 ∧ ∃ n : ℤ, y = n) ∨ (x = 0 ∧ 1 ≤ y)))
  | _, _, _ => True

/-- No dual variable occurs. -/
def Closed {ι : Type} : Expr ι → Prop
  | .const _ => True
  | .var _ => False
  | .un _ a => Closed a
  | .bin _ a b => Closed a ∧ Closed b

/-- Every operation in the tree is applied where it is differentiable. -/
def Good {ι : Type} (x : ι → ℝ) : Expr ι → Prop
  | .const _ => True
  | .var _ => True
  | .un o a => Good x a ∧ Good1 o (plain x a)
  | .bin o a b => Good x a ∧ Good x b ∧ Good2 (Closed b) o (plain x a) (plain x b)

variable {G E : Type} [AddCommGroup G] [Module ℝ G] [NormedAddCommGroup E] [NormedSpace ℝ E]

/-- A number represents a function at a point: same value, and its gradient (read through `φ`) is the derivative. -/
def Rep (φ : G →ₗ[ℝ] (E →L[ℝ] ℝ)) (p : E) (n : Num G) (f : E → ℝ) : Prop :=
  n.value = f p ∧ HasFDerivAt f (φ n.gradient) p

/-- Derivative of a unary operation. -/
private def d1 : Op1 → ℝ → ℝ
  | .neg, _ => -1
  | .abs, x => if 0 ≤ x then 1 else -1
  | .sqrt, x => (2 * Real.sqrt x)⁻¹
  | .cos, x => -Real.sin x
  | .sin, x => Real.cos x
  | .atan, x => (1 + x ^ 2)⁻¹
  | .asin, x => (Real.sqrt (1 - x ^ 2))⁻¹
  | .acos, x => -(Real.sqrt (1 - x ^ 2))⁻¹
  | .exp, x => Real.exp x
  | .log, x => x⁻¹
  | .log1p, x => (1 + x)⁻¹

private theorem hasDeriv1 (o : Op1) (x : ℝ) (hg : Good1 o x) : HasDerivAt (std1 o) (d1 o x) x := by
  cases o with
  | neg => exact hasDerivAt_neg x
  | abs =>
    have hne : x ≠ 0 := hg
    by_cases h0 : 0 ≤ x
    · have := hasDerivAt_abs_pos (lt_of_le_of_ne h0 (Ne.symm hne))
      simp only [d1, if_pos h0]; exact this
    · have := hasDerivAt_abs_neg (not_le.mp h0)
      simp only [d1, if_neg h0]; exact this
  | sqrt => have := Real.hasDerivAt_sqrt (ne_of_gt hg); rw [one_div] at this; exact this
  | cos => exact Real.hasDerivAt_cos x
  | sin => exact Real.hasDerivAt_sin x
  | atan => have := Real.hasDerivAt_arctan x; rw [one_div] at this; exact this
  | asin => have := Real.hasDerivAt_arcsin (ne_of_gt hg.1) (ne_of_lt hg.2); rw [one_div] at this; exact this
  | acos => have := Real.hasDerivAt_arccos (ne_of_gt hg.1) (ne_of_lt hg.2); rw [one_div] at this; exact this
  | exp => exact Real.hasDerivAt_exp x
  | log => exact Real.hasDerivAt_log (ne_of_gt hg)
  | log1p =>
    have h1 : HasDerivAt (fun x : ℝ => 1 + x) 1 x := by simpa using (hasDerivAt_id x).const_add 1
    have hg' : -1 < x := hg
    have := h1.log (by linarith)
    rw [one_div] at this; exact this

private theorem ap1_value (o : Op1) (n : Num G) : (ap1 o n).value = std1 o n.value := by
  cases n with
  | dbl x => rfl
  | dual d =>
    cases o
    case abs =>
      simp only [ap1, Num.value, Dual.abs, std1]
      split
      · rename_i h; exact (abs_of_nonneg h).symm
      · rename_i h; exact (abs_of_neg (not_le.mp h)).symm
    all_goals rfl

private theorem ap1_gradient (o : Op1) (n : Num G) : (ap1 o n).gradient = d1 o n.value • n.gradient := by
  cases n with
  | dbl x => simp [ap1, Num.gradient]
  | dual d =>
    cases o
    case neg => simp [ap1, Num.gradient, Dual.neg, d1]
    case abs =>
      have e : (ap1 .abs (.dual d) : Num G).gradient = (if d.value ≥ 0 then d else d.neg).gradient := rfl
      have e' : d1 .abs (Num.dual d).value = if 0 ≤ d.value then 1 else -1 := rfl
      rw [e, e']
      by_cases h : 0 ≤ d.value
      · rw [if_pos h, if_pos h, one_smul]; rfl
      · rw [if_neg h, if_neg h, neg_smul, one_smul]; rfl
    case cos => simp [ap1, Num.gradient, Dual.cos, d1, Num.value]
    case acos => simp [ap1, Num.gradient, Dual.acos, d1, Num.value]
    all_goals rfl

private theorem rep1 (φ : G →ₗ[ℝ] (E →L[ℝ] ℝ)) (p : E) (o : Op1) (n : Num G) (f : E → ℝ) (h : Rep φ p n f)
    (hg : Good1 o (f p)) : Rep φ p (ap1 o n) (fun q => std1 o (f q)) := by
  refine ⟨by rw [ap1_value, h.1], ?_⟩
  rw [ap1_gradient, map_smul, h.1]
  exact (hasDeriv1 o (f p) hg).comp_hasFDerivAt p h.2

/-- Derivative of `atan2`. -/
private theorem hasFDerivAt_atan2 (p : E) (f g : E → ℝ) (f' g' : E →L[ℝ] ℝ) (hf : HasFDerivAt f f' p) (hg : HasFDerivAt g g' p)
    (h : 0 < g p ∨ f p ≠ 0) :
    HasFDerivAt (fun q => Dual.stdAtan2 (f q) (g q))
      ((g p ^ 2 + f p ^ 2)⁻¹ • (g p • f') - (g p ^ 2 + f p ^ 2)⁻¹ • (f p • g')) p := by
  have hc : HasFDerivAt (fun q => (g q : ℂ) + (f q : ℂ) * Complex.I)
      (Complex.ofRealCLM.comp g' + Complex.I • Complex.ofRealCLM.comp f') p := by
    have h1 := Complex.ofRealCLM.hasFDerivAt.comp p hg
    have h2 := (Complex.ofRealCLM.hasFDerivAt.comp p hf).const_smul Complex.I
    refine (h1.add h2).congr_of_eventuallyEq (Filter.Eventually.of_forall fun q => ?_)
    simp [mul_comm]
  have hz : ∀ a b : ℝ, (a : ℂ) + (b : ℂ) * Complex.I = ⟨a, b⟩ := fun a b => (Complex.mk_eq_add_mul_I a b).symm
  have hs : (g p : ℂ) + (f p : ℂ) * Complex.I ∈ Complex.slitPlane := by
    rw [hz, Complex.mem_slitPlane_iff]; exact h
  have hl := ((Complex.hasDerivAt_log hs).hasFDerivAt.restrictScalars ℝ).comp p hc
  have him := Complex.imCLM.hasFDerivAt.comp p hl
  have hne : g p ^ 2 + f p ^ 2 ≠ 0 := by
    rcases h with h | h
    · have : 0 ≤ f p ^ 2 := sq_nonneg _
      positivity
    · have : 0 < f p ^ 2 := by positivity
      have : 0 ≤ g p ^ 2 := sq_nonneg _
      positivity
  refine (him.congr_of_eventuallyEq (Filter.Eventually.of_forall fun q => ?_)).congr_fderiv ?_
  · simp [Dual.stdAtan2, Complex.log_im, hz]
  · ext v
    simp [hz, Complex.inv_im, Complex.inv_re, Complex.normSq_apply]
    field_simp
    ring

/-- Partial derivatives of a binary operation. -/
private def d2 : Op2 → ℝ → ℝ → ℝ × ℝ
  | .add, _, _ => (1, 1)
  | .sub, _, _ => (1, -1)
  | .mul, x, y => (y, x)
  | .div, x, y => (y⁻¹, -(x / (y * y)))
  | .max, x, y => if x > y then (1, 0) else (0, 1)
  | .min, x, y => if x < y then (1, 0) else (0, 1)
  | .atan2, y, x => (x / (x ^ 2 + y ^ 2), -(y / (x ^ 2 + y ^ 2)))
  | .pow, x, y => (y * x ^ (y - 1), x ^ y * Real.log x)

private theorem hasDeriv2 (p : E) (o : Op2) (f g : E → ℝ) (f' g' : E →L[ℝ] ℝ) (hf : HasFDerivAt f f' p) (hg : HasFDerivAt g g' p)
    (h : Good2 False o (f p) (g p)) :
    HasFDerivAt (fun q => std2 o (f q) (g q)) ((d2 o (f p) (g p)).1 • f' + (d2 o (f p) (g p)).2 • g') p := by
  cases o with
  | add =>
    refine (hf.add hg).congr_fderiv ?_
    simp [d2]
  | sub =>
    refine (hf.sub hg).congr_fderiv ?_
    ext v
    simp [d2, sub_eq_add_neg]
  | mul =>
    have := hf.mul hg
    rw [add_comm] at this; exact this
  | div =>
    have hne : g p ≠ 0 := h
    have h1 := hf.mul ((hasDerivAt_inv hne).comp_hasFDerivAt p hg)
    refine h1.congr_fderiv ?_
    simp only [d2]
    ext v
    simp
    field_simp
    ring
  | max =>
    have hne : f p ≠ g p := h
    rcases lt_or_gt_of_ne hne with hlt | hlt
    · have he : (fun q => std2 .max (f q) (g q)) =ᶠ[nhds p] g := by
        filter_upwards [hf.continuousAt.eventually_lt hg.continuousAt hlt] with q hq
        exact max_eq_right hq.le
      simp only [d2, if_neg (not_lt.mpr hlt.le), zero_smul, one_smul, zero_add]
      exact hg.congr_of_eventuallyEq he
    · have he : (fun q => std2 .max (f q) (g q)) =ᶠ[nhds p] f := by
        filter_upwards [hg.continuousAt.eventually_lt hf.continuousAt hlt] with q hq
        exact max_eq_left hq.le
      simp only [d2, if_pos hlt, zero_smul, one_smul, add_zero]
      exact hf.congr_of_eventuallyEq he
  | min =>
    have hne : f p ≠ g p := h
    rcases lt_or_gt_of_ne hne with hlt | hlt
    · have he : (fun q => std2 .min (f q) (g q)) =ᶠ[nhds p] f := by
        filter_upwards [hf.continuousAt.eventually_lt hg.continuousAt hlt] with q hq
        exact min_eq_left hq.le
      simp only [d2, if_pos hlt, zero_smul, one_smul, add_zero]
      exact hf.congr_of_eventuallyEq he
    · have he : (fun q => std2 .min (f q) (g q)) =ᶠ[nhds p] g := by
        filter_upwards [hg.continuousAt.eventually_lt hf.continuousAt hlt] with q hq
        exact min_eq_right hq.le
      simp only [d2, if_neg (not_lt.mpr hlt.le), zero_smul, one_smul, zero_add]
      exact hg.congr_of_eventuallyEq he
  | atan2 =>
    refine (hasFDerivAt_atan2 p f g f' g' hf hg h).congr_fderiv ?_
    ext v
    simp [d2]
    ring
  | pow =>
    have hpos : 0 < f p := by rcases h with h | h; exacts [h, h.1.elim]
    refine (hf.rpow hg hpos).congr_fderiv ?_
    simp only [d2]

private theorem hasDeriv2_constPow (p : E) (f : E → ℝ) (y : ℝ) (f' : E →L[ℝ] ℝ) (hf : HasFDerivAt f f' p)
    (h : f p ≠ 0 ∨ 1 ≤ y) : HasFDerivAt (fun q => f q ^ y) ((y * f p ^ (y - 1)) • f') p :=
  (Real.hasDerivAt_rpow_const h).comp_hasFDerivAt p hf

private theorem ap2_value (o : Op2) (n m : Num G) : (ap2 o n m).value = std2 o n.value m.value := by
  have hmax : ∀ x y : ℝ, (if x > y then x else y) = Max.max x y := by
    intro x y; split
    · rename_i h; exact (max_eq_left h.le).symm
    · rename_i h; exact (max_eq_right (not_lt.mp h)).symm
  have hmin : ∀ x y : ℝ, (if x < y then x else y) = Min.min x y := by
    intro x y; split
    · rename_i h; exact (min_eq_left h.le).symm
    · rename_i h; exact (min_eq_right (not_lt.mp h)).symm
  cases n <;> cases m <;> cases o
  all_goals first | rfl | skip
  all_goals simp only [ap2, Num.value, Dual.maxL, Dual.maxR, Dual.max, Dual.minL, Dual.minR, Dual.min, std2, ← hmax, ← hmin]
  all_goals split <;> rfl

private theorem ap2_gradient (o : Op2) (n m : Num G) (h : Good2 (∃ y, m = .dbl y) o n.value m.value) :
    (ap2 o n m).gradient = (d2 o n.value m.value).1 • n.gradient + (d2 o n.value m.value).2 • m.gradient := by
  cases n with
  | dbl x =>
    cases m with
    | dbl y => simp [ap2, Num.gradient]
    | dual y =>
      cases o
      case max =>
        show (if x > y.value then (⟨x, (0 : ℝ) • y.gradient⟩ : Dual G) else y).gradient = _ • (0 : G) + _ • y.gradient
        show _ = (if x > y.value then ((1 : ℝ), (0 : ℝ)) else (0, 1)).1 • (0 : G) +
          (if x > y.value then ((1 : ℝ), (0 : ℝ)) else (0, 1)).2 • y.gradient
        split <;> simp
      case min =>
        show (if x < y.value then (⟨x, (0 : ℝ) • y.gradient⟩ : Dual G) else y).gradient = _ • (0 : G) + _ • y.gradient
        show _ = (if x < y.value then ((1 : ℝ), (0 : ℝ)) else (0, 1)).1 • (0 : G) +
          (if x < y.value then ((1 : ℝ), (0 : ℝ)) else (0, 1)).2 • y.gradient
        split <;> simp
      all_goals simp [ap2, Num.gradient, Num.value, d2, Dual.addL, Dual.subL, Dual.mulL, Dual.divL, Dual.atan2L, Dual.powL,
        smul_smul, div_eq_inv_mul]
  | dual x =>
    cases m with
    | dbl y =>
      cases o
      case max =>
        show (if x.value > y then x else (⟨y, (0 : ℝ) • x.gradient⟩ : Dual G)).gradient = _
        show _ = (if x.value > y then ((1 : ℝ), (0 : ℝ)) else (0, 1)).1 • x.gradient +
          (if x.value > y then ((1 : ℝ), (0 : ℝ)) else (0, 1)).2 • (0 : G)
        split <;> simp
      case min =>
        show (if x.value < y then x else (⟨y, (0 : ℝ) • x.gradient⟩ : Dual G)).gradient = _
        show _ = (if x.value < y then ((1 : ℝ), (0 : ℝ)) else (0, 1)).1 • x.gradient +
          (if x.value < y then ((1 : ℝ), (0 : ℝ)) else (0, 1)).2 • (0 : G)
        split <;> simp
      all_goals simp [ap2, Num.gradient, Num.value, d2, Dual.addR, Dual.subR, Dual.mulR, Dual.divR, Dual.atan2R, Dual.powR,
        smul_smul, div_eq_inv_mul]
    | dual y =>
      cases o
      case max =>
        show (if x.value > y.value then x else y).gradient = _
        show _ = (if x.value > y.value then ((1 : ℝ), (0 : ℝ)) else (0, 1)).1 • x.gradient +
          (if x.value > y.value then ((1 : ℝ), (0 : ℝ)) else (0, 1)).2 • y.gradient
        split <;> simp
      case min =>
        show (if x.value < y.value then x else y).gradient = _
        show _ = (if x.value < y.value then ((1 : ℝ), (0 : ℝ)) else (0, 1)).1 • x.gradient +
          (if x.value < y.value then ((1 : ℝ), (0 : ℝ)) else (0, 1)).2 • y.gradient
        split <;> simp
      case pow =>
        have hpos : 0 < x.value := by
          rcases h with h | ⟨⟨y', h⟩, -⟩
          · exact h
          · cases h
        have e : x.value ^ (y.value - 1) * x.value = x.value ^ y.value := by
          rw [Real.rpow_sub_one (ne_of_gt hpos)]; field_simp
        simp only [ap2, Num.gradient, Num.value, d2, Dual.pow, smul_add, smul_smul]
        rw [← mul_assoc, e, mul_comm y.value]
      all_goals simp [ap2, Num.gradient, Num.value, d2, Dual.add, Dual.sub, Dual.mul, Dual.div, Dual.atan2,
        smul_smul, div_eq_inv_mul, sub_eq_add_neg]

private theorem rep2 (φ : G →ₗ[ℝ] (E →L[ℝ] ℝ)) (p : E) (o : Op2) (n m : Num G) (f g : E → ℝ) (hn : Rep φ p n f)
    (hm : Rep φ p m g) (c : Prop) (hc : c → ∃ y, m = .dbl y ∧ g = fun _ => y) (hg : Good2 c o (f p) (g p)) :
    Rep φ p (ap2 o n m) (fun q => std2 o (f q) (g q)) := by
  refine ⟨by rw [ap2_value, hn.1, hm.1], ?_⟩
  have hg' : Good2 (∃ y, m = .dbl y) o n.value m.value := by
    rw [hn.1, hm.1]
    cases o <;> try exact hg
    rcases hg with h | ⟨h, h'⟩
    · exact Or.inl h
    · obtain ⟨y, hy, -⟩ := hc h; exact Or.inr ⟨⟨y, hy⟩, h'⟩
  rw [ap2_gradient o n m hg', map_add, map_smul, map_smul, hn.1, hm.1]
  by_cases hF : Good2 False o (f p) (g p)
  · exact hasDeriv2 p o f g _ _ hn.2 hm.2 hF
  · cases o <;> try exact absurd hg hF
    rcases hg with h | ⟨h, h'⟩
    · exact absurd (Or.inl h) hF
    · obtain ⟨y, hy, rfl⟩ := hc h
      subst hy
      have h0 : f p ≠ 0 ∨ 1 ≤ y := by
        rcases h' with h' | h'
        · exact Or.inl h'.1
        · exact Or.inr h'.2
      have := hasDeriv2_constPow p f y _ hn.2 h0
      refine this.congr_fderiv ?_
      simp [d2, Num.gradient]

private theorem closed_run {ι : Type} (x : ι → Num G) (e : Expr ι) (he : Closed e) :
    ∃ y, e.run x = .dbl y ∧ ∀ z, plain z e = y := by
  induction e with
  | const c => exact ⟨c, rfl, fun _ => rfl⟩
  | var i => exact he.elim
  | un o a ih =>
    obtain ⟨y, h1, h2⟩ := ih he
    exact ⟨std1 o y, by simp [Expr.run, h1, ap1], fun z => by simp [plain, h2]⟩
  | bin o a b iha ihb =>
    obtain ⟨y, h1, h2⟩ := iha he.1
    obtain ⟨y', h1', h2'⟩ := ihb he.2
    exact ⟨std2 o y y', by simp [Expr.run, h1, h1', ap2], fun z => by simp [plain, h2, h2']⟩

/-- **C12 (general).**  Let the variables be functions `f i` of a point of any normed space `E`, each given to the expression as a number
(plain or dual) carrying its value and its derivative at `p`, in any gradient type `G` that is read as a linear functional on `E`.  If
every operation is applied where it is differentiable, the result carries the value and the derivative of the plain expression. -/
theorem C12_derivative {ι : Type} (φ : G →ₗ[ℝ] (E →L[ℝ] ℝ)) (p : E) (f : ι → E → ℝ) (x : ι → Num G)
    (hx : ∀ i, (x i).value = f i p ∧ HasFDerivAt (f i) (φ (x i).gradient) p) (e : Expr ι) (hg : Good (fun i => f i p) e) :
    (e.run x).value = plain (fun i => f i p) e ∧
      HasFDerivAt (fun q => plain (fun i => f i q) e) (φ (e.run x).gradient) p := by
  show Rep φ p (e.run x) (fun q => plain (fun i => f i q) e)
  induction e with
  | const c =>
    refine ⟨rfl, ?_⟩
    simp only [Expr.run, Num.gradient, map_zero, plain]
    exact hasFDerivAt_const c p
  | var i => exact hx i
  | un o a ih => exact rep1 φ p o _ _ (ih hg.1) hg.2
  | bin o a b iha ihb =>
    refine rep2 φ p o _ _ _ _ (iha hg.1) (ihb hg.2.1) (Closed b) (fun hc => ?_) hg.2.2
    obtain ⟨y, h1, h2⟩ := closed_run x b hc
    exact ⟨y, h1, funext fun q => h2 _⟩

/-- **C12, value.**  The value part is the plain value whenever the operations are defined at all, differentiable or not (also at the kinks
of `abs`, `max`, `min`). -/
theorem C12_value {ι : Type} (x : ι → Num G) (e : Expr ι) : (e.run x).value = plain (fun i => (x i).value) e := by
  induction e with
  | const c => rfl
  | var i => rfl
  | un o a ih => simp only [Expr.run, plain, ap1_value, ih]
  | bin o a b iha ihb => simp only [Expr.run, plain, ap2_value, iha, ihb]

/-- **C12, one variable** (`make_dual`): the gradient is the ordinary derivative. -/
theorem C12_make_dual (e : Expr Unit) (t : ℝ) (hg : Good (fun _ => t) e) :
    (e.run fun _ => .dual (makeDual t)).value = plain (fun _ => t) e ∧
      HasDerivAt (fun s => plain (fun _ => s) e) (e.run fun _ => .dual (makeDual t)).gradient t := by
  have h := C12_derivative (E := ℝ) (G := ℝ) (LinearMap.mk₂ ℝ (fun a b => a * b) (by intros; ring) (by intros; simp; ring)
    (by intros; ring) (by intros; simp; ring) |> fun B => (LinearMap.toContinuousLinearMap : (ℝ →ₗ[ℝ] ℝ) ≃ₗ[ℝ] (ℝ →L[ℝ] ℝ)).toLinearMap.comp B)
    t (fun _ s => s) (fun _ => .dual (makeDual t)) (fun _ => ⟨rfl, ?_⟩) e hg
  · refine ⟨h.1, ?_⟩
    have := h.2.hasDerivAt
    simpa using this
  · refine (hasFDerivAt_id t).congr_fderiv ?_
    ext
    simp [Num.gradient, makeDual]

/-- The linear functional with given coefficients. -/
def ofCoeffs (ι : Type) [Fintype ι] : (ι → ℝ) →ₗ[ℝ] ((ι → ℝ) →L[ℝ] ℝ) where
  toFun g := ∑ i, g i • ContinuousLinearMap.proj (R := ℝ) (φ := fun _ : ι => ℝ) i
  map_add' g h := by simp [add_smul, Finset.sum_add_distrib]
  map_smul' c g := by simp [Finset.smul_sum, smul_smul]

/-- **C12, several variables** (what the library does for tensor arguments): seed variable `i` with the `i`-th unit vector; the gradient's
`i`-th entry is the partial derivative with respect to variable `i`. -/
theorem C12_partial_derivatives {ι : Type} [Fintype ι] [DecidableEq ι] (e : Expr ι) (a : ι → ℝ) (hg : Good a e) :
    let r := e.run fun i => .dual ⟨a i, Pi.single i 1⟩
    r.value = plain a e ∧ HasFDerivAt (fun x => plain x e) (ofCoeffs ι r.gradient) a ∧
      ∀ i, HasDerivAt (fun s => plain (Function.update a i s) e) (r.gradient i) (a i) := by
  have h := C12_derivative (E := ι → ℝ) (G := ι → ℝ) (ofCoeffs ι) a (fun i x => x i) (fun i => .dual ⟨a i, Pi.single i 1⟩)
    (fun i => ⟨rfl, ?_⟩) e hg
  · refine ⟨h.1, h.2, fun i => ?_⟩
    have hu := hasDerivAt_update a i (a i)
    have h2 : HasFDerivAt (fun x => plain x e)
      (ofCoeffs ι (e.run fun i => .dual ⟨a i, Pi.single i 1⟩).gradient) (Function.update a i (a i)) := by
      rw [Function.update_eq_self]; exact h.2
    have := h2.comp_hasDerivAt (a i) hu
    refine this.congr_deriv ?_
    simp [ofCoeffs, Pi.single_apply]
  · refine (hasFDerivAt_apply i a).congr_fderiv ?_
    ext v
    simp [ofCoeffs, Num.gradient, Pi.single_apply]

/-! ### The hypotheses are met, and needed -/

/-- `pow(x, y) / sqrt(1 + x*x) - max(atan2(y, x), 2) * exp(log(x))` at `(2, 3)`. -/
def sampleExpr : Expr Bool :=
  .bin .sub (.bin .div (.bin .pow (.var true) (.var false)) (.un .sqrt (.bin .add (.const 1) (.bin .mul (.var true) (.var true)))))
    (.bin .mul (.bin .atan2 (.var false) (.var true)) (.un .exp (.un .log (.var true))))

example : Good (fun b => if b then (2 : ℝ) else 3) sampleExpr := by
  have h5 : (0 : ℝ) < Real.sqrt (1 + 2 * 2) := by positivity
  simp only [sampleExpr, Good, Good1, Good2, plain, std1, std2, if_true, true_and, and_true]
  refine ⟨⟨Or.inl (by norm_num), by norm_num, by simpa using ne_of_gt h5⟩, Or.inl (by norm_num), by norm_num⟩

/-- At a kink the code picks one side (documented in dual.hpp:217, 227): the derivative claim really needs the hypothesis. -/
example : ((Expr.un .abs (.var ())).run fun _ => Num.dual (makeDual 0)).gradient = 1 ∧
    ¬ DifferentiableAt ℝ (fun s => plain (fun _ => s) (Expr.un .abs (.var ()))) 0 := by
  refine ⟨by simp [Expr.run, ap1, Num.gradient, Dual.abs, makeDual], ?_⟩
  simpa [plain, std1] using not_differentiableAt_abs_zero

end Serac.C12
