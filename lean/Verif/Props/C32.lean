import Verif.Model.Plasticity
import Verif.Proofs.Tensor
import Verif.Props.C15
import Mathlib.Analysis.SpecialFunctions.ExpDeriv
import Mathlib.Analysis.SpecialFunctions.Pow.Deriv
import Mathlib.Analysis.Calculus.Deriv.MeanValue
/-!
# C32: J2 plasticity return mapping is consistent

Spec.  `mises` is the equivalent relative stress `√(3/2) ‖dev σ - (2/3) Hk εp‖`.  The material has positive shear stiffness, non-negative
kinematic hardening, and a flow stress that is non-negative and non-decreasing for non-negative accumulated plastic strain; all three hardening
laws satisfy this for their usual parameters (`C32_laws`).

The code ignores the status of the scalar solve, which gives up after 25 iterations; the yield condition and the repeatability are therefore
proved for converged solves (`_partial`).  For linear hardening the solve always converges (`C32_linear`), which settles the full claim there.
-/

noncomputable section
namespace Serac.C32
open Serac.Tensor Serac.J2
open scoped Matrix

/-! ## Spec -/

abbrev M3 := Matrix (Fin 3) (Fin 3) ℝ

/-- Frobenius norm. -/
def frob (A : M3) : ℝ := Real.sqrt (∑ i, ∑ j, A i j ^ 2)

/-- Deviatoric part. -/
def deviator (A : M3) : M3 := A - (A.trace / 3) • (1 : M3)

/-- Equivalent relative stress. -/
def mises (Hk : ℝ) (σ εp : M3) : ℝ := Real.sqrt (3 / 2) * frob (deviator σ - (2 / 3 * Hk) • εp)

structure Good (P : Params) : Prop where
  E : 0 < P.E
  nu : -1 < P.nu
  nu' : 1 - 2 * P.nu ≠ 0
  Hk : 0 ≤ P.Hk
  sigmaY : 0 < P.sigmaY
  nonneg : ∀ a, 0 ≤ a → 0 ≤ P.Y a
  mono : ∀ a b, 0 ≤ a → a ≤ b → P.Y a ≤ P.Y b
  deriv : ∀ a, 0 ≤ a → 0 ≤ P.dY a

/-- Admissible internal state. -/
structure Adm (st : State) : Prop where
  symm : st.plasticStrain ᵀ = st.plasticStrain
  trace : Matrix.trace st.plasticStrain = 0
  eqps : 0 ≤ st.eqps

/-- Hooke's law for the elastic strain. -/
def hooke (P : Params) (e : M3) : M3 := (P.E / (3 * (1 - 2 * P.nu)) * e.trace) • (1 : M3) + (P.E / (1 + P.nu)) • deviator e

/-- Small strain. -/
def strain (H : M3) : M3 := (1 / 2 : ℝ) • (H + Hᵀ)

/-! ## The scalar solve -/

open ScalarSolver in
theorem solve_ok {f f' : ℝ → ℝ} {opt : Options} (x0 lo hi : ℝ) (h1 : 0 < f lo) (h2 : f hi ≤ 0) (hle : lo ≤ hi)
    (hd : ∀ x, lo ≤ x → x ≤ hi → f' x ≠ 0) : ∃ r, solve f f' opt x0 lo hi = .ok r := by
  cases h : solve f f' opt x0 lo hi with
  | notBracketed => rcases C15.C15_not_bracketed x0 lo hi |>.1 h with h | h <;> linarith
  | undefined =>
    obtain ⟨s, -, -, h3, h4⟩ := C15.C15_undefined_only x0 lo hi h
    rw [Set.uIcc_of_le hle] at h4
    exact absurd h3 (hd _ h4.1 h4.2)
  | ok r => exact ⟨r, rfl⟩

/-- A linear equation is solved in at most two steps. -/
theorem solve_linear (r0 a Hi rtol : ℝ) (hr : 0 < r0) (ha : 0 < a) (hH : 0 ≤ Hi) (ht : 0 < rtol) :
    ∃ r, ScalarSolver.solve (fun d => r0 - (a + Hi) * d) (fun _ => -(a + Hi)) ⟨0, rtol, 25⟩ 0 0 (r0 / a) = .ok r ∧ r.converged = true := by
  have hab : 0 < a + Hi := by linarith
  set f : ℝ → ℝ := fun d => r0 - (a + Hi) * d with hf
  set f' : ℝ → ℝ := fun _ => -(a + Hi) with hf'
  have hhi : f (r0 / a) = -(Hi * (r0 / a)) := by
    rw [hf]
    dsimp only
    field_simp
    ring
  have hlo : f 0 = r0 := by simp [hf]
  have hu : 0 < r0 / a := div_pos hr ha
  unfold ScalarSolver.solve
  rw [if_neg (by
    rw [hhi, hlo, gt_iff_lt, not_lt]
    have : 0 ≤ r0 * (Hi * (r0 / a)) := by positivity
    linarith), if_neg (by rw [hlo]; exact hr.ne')]
  rw [hhi]
  by_cases h0 : -(Hi * (r0 / a)) = 0
  · rw [if_pos h0]
    exact ⟨_, rfl, rfl⟩
  rw [if_neg h0]
  have hHi : 0 < Hi := lt_of_le_of_ne hH fun h => h0 (by rw [← h]; ring)
  have hstart : ScalarSolver.start f f' 0 0 (r0 / a) = ⟨0, r0 / a, 0, r0 / a, r0 / a, r0, -(a + Hi), 0, false⟩ := by
    simp [ScalarSolver.start, hf, hf', hr, abs_of_pos hu, not_lt.2 hu.le]
  -- a Newton step from any state is exact
  have newton : ∀ s : ScalarSolver.St, s.fval = f s.x → s.dfdx = -(a + Hi) → ¬ ScalarSolver.useBisection s →
      ∃ s', ScalarSolver.body f f' ⟨0, rtol, 25⟩ s = some s' ∧ s'.converged = true := by
    intro s h1 h2 h3
    unfold ScalarSolver.body
    rw [if_neg h3, if_neg (by rw [h2]; linarith)]
    refine ⟨_, rfl, ?_⟩
    have : f (s.x - s.fval / s.dfdx) = 0 := by
      rw [h1, h2, hf]
      dsimp only
      field_simp
      ring
    simp only [ScalarSolver.finish, this, abs_zero, ht, decide_true, Bool.or_true]
  have hdone : ∀ k s, s.converged = true → ScalarSolver.loop f f' ⟨0, rtol, 25⟩ k s = some s := by
    intro k s hs
    cases k <;> simp [ScalarSolver.loop, hs]
  rw [hstart]
  by_cases hb : ScalarSolver.useBisection ⟨0, r0 / a, 0, r0 / a, r0 / a, r0, -(a + Hi), 0, false⟩
  · -- bisection first
    have hx1 : r0 / a + 1 / 2 * (0 - r0 / a) = r0 / a / 2 := by ring
    have hfx : f (r0 / a / 2) = (a - Hi) * (r0 / a) / 2 := by
      rw [hf]
      dsimp only
      field_simp
      ring
    have hlt : Hi < a := by
      by_contra hge
      push Not at hge
      unfold ScalarSolver.useBisection at hb
      dsimp only at hb
      rcases hb with h | h | h
      · linarith
      · have : (0 - r0 / a) * -(a + Hi) - r0 = Hi * (r0 / a) := by
          field_simp
          ring
        rw [this] at h
        linarith [mul_pos hHi hu]
      · rw [abs_of_pos (by linarith), abs_mul, abs_neg, abs_of_pos hu, abs_of_pos hab] at h
        have : r0 / a * (a + Hi) = r0 + Hi * (r0 / a) := by field_simp
        have h4 : a * (r0 / a) ≤ Hi * (r0 / a) := mul_le_mul_of_nonneg_right hge hu.le
        rw [mul_div_cancel₀ _ ha.ne'] at h4
        linarith
    have hfpos : 0 < f (r0 / a / 2) := by
      rw [hfx]
      have : 0 < a - Hi := by linarith
      positivity
    have hbody : ScalarSolver.body f f' ⟨0, rtol, 25⟩ ⟨0, r0 / a, 0, r0 / a, r0 / a, r0, -(a + Hi), 0, false⟩ =
        some (ScalarSolver.finish f f' ⟨0, rtol, 25⟩ ⟨0, r0 / a, 0, r0 / a, r0 / a, r0, -(a + Hi), 0, false⟩ (1 / 2 * (0 - r0 / a))
          (r0 / a + 1 / 2 * (0 - r0 / a)) (decide (r0 / a + 1 / 2 * (0 - r0 / a) = r0 / a))) := by
      unfold ScalarSolver.body
      rw [if_pos hb]
    rw [ScalarSolver.loop, if_neg (by simp), hbody, Option.bind_some]
    generalize hs1 : ScalarSolver.finish f f' ⟨0, rtol, 25⟩ ⟨0, r0 / a, 0, r0 / a, r0 / a, r0, -(a + Hi), 0, false⟩ (1 / 2 * (0 - r0 / a))
          (r0 / a + 1 / 2 * (0 - r0 / a)) (decide (r0 / a + 1 / 2 * (0 - r0 / a) = r0 / a)) = s1
    by_cases hc : s1.converged = true
    · rw [hdone _ _ hc]
      exact ⟨_, rfl, hc⟩
    · have e1 : s1.x = r0 / a / 2 := by rw [← hs1, ← hx1]; rfl
      have e2 : s1.xl = r0 / a := by
        rw [← hs1]
        simp only [ScalarSolver.finish, hx1, if_neg (not_lt.2 hfpos.le)]
      have e3 : s1.xh = r0 / a / 2 := by
        rw [← hs1]
        simp only [ScalarSolver.finish, hx1, if_neg (not_lt.2 hfpos.le)]
      have e4 : s1.deltaXOld = r0 / a := by rw [← hs1]; rfl
      have e5 : s1.fval = f (r0 / a / 2) := by rw [← hs1, ← hx1]; rfl
      have e6 : s1.dfdx = -(a + Hi) := by rw [← hs1]; rfl
      obtain ⟨s2, h2, h3⟩ := newton s1 (by rw [e5, e1]) e6 (by
        unfold ScalarSolver.useBisection
        rw [e1, e2, e3, e4, e5, e6]
        push Not
        refine ⟨by rw [sub_self, zero_mul]; linarith, ?_, ?_⟩
        · rw [hfx]
          have : (r0 / a / 2 - r0 / a) * -(a + Hi) - (a - Hi) * (r0 / a) / 2 = Hi * (r0 / a) := by ring
          rw [this]
          positivity
        · rw [abs_of_pos (by linarith), abs_mul, abs_neg, abs_of_pos hu, abs_of_pos hab, hfx]
          have : 0 < Hi * (r0 / a) := by positivity
          linarith)
      rw [ScalarSolver.loop, if_neg hc, h2, Option.bind_some, hdone _ _ h3]
      exact ⟨_, rfl, h3⟩
  · obtain ⟨s2, h2, h3⟩ := newton _ (by simp [hf]) rfl hb
    rw [ScalarSolver.loop, if_neg (by simp), h2, Option.bind_some, hdone _ _ h3]
    exact ⟨_, rfl, h3⟩

/-! ## The predictor as matrix expressions -/

theorem norm_eq (A : M3) : J2.norm A = frob A := by
  rw [J2.norm, frob, sqNorm_eq]
  simp only [sq]

theorem frob_smul (c : ℝ) (hc : 0 ≤ c) (A : M3) : frob (c • A) = c * frob A := by
  have : (∑ i, ∑ j, (c • A) i j ^ 2) = c ^ 2 * ∑ i, ∑ j, A i j ^ 2 := by
    simp only [Finset.mul_sum, Matrix.smul_apply, smul_eq_mul, mul_pow]
  rw [frob, this, Real.sqrt_mul (sq_nonneg c), Real.sqrt_sq hc, frob]

theorem frob_nonneg (A : M3) : 0 ≤ frob A := Real.sqrt_nonneg _

def eta (P : Params) (e εp : M3) : M3 := (2 * shear P) • deviator e - (2 / 3 * P.Hk) • εp

theorem sym_strain (H : M3) : sym H = strain H := by
  funext i j
  rfl

theorem predictor_eq (P : Params) (st : State) (H : M3) :
    predictor P st H = (bulk P * (strain H - st.plasticStrain : M3).trace, (2 * shear P) • deviator (strain H - st.plasticStrain),
      eta P (strain H - st.plasticStrain) st.plasticStrain,
      Real.sqrt (3 / 2) * frob (eta P (strain H - st.plasticStrain) st.plasticStrain)) := by
  have h1 : @Eq M3 (fun i j => sym H i j - st.plasticStrain i j) (strain H - st.plasticStrain) := by
    rw [sym_strain]
    rfl
  have h2 : @Eq M3 (fun i j => 2 * shear P * dev (strain H - st.plasticStrain) i j)
      ((2 * shear P) • deviator (strain H - st.plasticStrain)) := by
    rw [dev_eq]
    funext i j
    simp [deviator]
  have h3 : @Eq M3 (fun i j => 2 * shear P * dev (strain H - st.plasticStrain) i j - 2 / 3 * P.Hk * st.plasticStrain i j)
      (eta P (strain H - st.plasticStrain) st.plasticStrain) := by
    funext i j
    rw [eta, ← h2]
    rfl
  dsimp only [predictor]
  rw [h1, h2, h3, norm_eq, tr_eq]

theorem trace_deviator (A : M3) : (deviator A).trace = 0 := by
  rw [deviator, Matrix.trace_sub, Matrix.trace_smul, Matrix.trace_one]
  simp

theorem deviator_of_traceless {A : M3} (h : A.trace = 0) : deviator A = A := by
  rw [deviator, h]
  simp

theorem deviator_sub (A B : M3) : deviator (A - B) = deviator A - deviator B := by
  simp only [deviator, Matrix.trace_sub, sub_div, sub_smul]
  abel

theorem deviator_add (A B : M3) : deviator (A + B) = deviator A + deviator B := by
  simp only [deviator, Matrix.trace_add, add_div, add_smul]
  abel

theorem deviator_smul (c : ℝ) (A : M3) : deviator (c • A) = c • deviator A := by
  simp only [deviator, Matrix.trace_smul, smul_sub, smul_smul, smul_eq_mul, mul_div_assoc]

theorem deviator_one : deviator (1 : M3) = 0 := by
  simp [deviator, Matrix.trace_one]

theorem trace_eta (P : Params) (e εp : M3) (h : εp.trace = 0) : (eta P e εp).trace = 0 := by
  rw [eta, Matrix.trace_sub, Matrix.trace_smul, Matrix.trace_smul, trace_deviator, h]
  simp

theorem symm_eta (P : Params) (e εp : M3) (he : eᵀ = e) (h : εpᵀ = εp) : (eta P e εp)ᵀ = eta P e εp := by
  simp only [eta, deviator, Matrix.transpose_sub, Matrix.transpose_smul, Matrix.transpose_one, he, h]

theorem strain_symm (H : M3) : (strain H)ᵀ = strain H := by
  rw [strain, Matrix.transpose_smul, Matrix.transpose_add, Matrix.transpose_transpose, add_comm]

theorem shear_pos {P : Params} (h : Good P) : 0 < shear P := by
  have : 0 < 1 + P.nu := by linarith [h.nu]
  have hE := h.E
  unfold shear
  positivity

/-- The stress the code returns is Hooke's law. -/
theorem hooke_eq {P : Params} (h : Good P) (e : M3) : hooke P e = (2 * shear P) • deviator e + (bulk P * e.trace) • (1 : M3) := by
  have hp : 1 + P.nu ≠ 0 := by linarith [h.nu]
  have : P.E / (1 + P.nu) = 2 * shear P := by
    rw [shear]
    field_simp
  rw [hooke, this, add_comm]
  rfl

/-- The two ways an evaluation can end. -/
theorem update_cases {P : Params} (hP : Good P) {st : State} (hst : Adm st) (H : M3) :
    let e : M3 := strain H - st.plasticStrain
    let η := eta P e st.plasticStrain
    let q := Real.sqrt (3 / 2) * frob η
    (J2.residual P st.eqps q 0 ≤ tol * P.sigmaY ∧ update P st H = some (hooke P e, st, none)) ∨
    ∃ r : ScalarSolver.Result, 0 < q ∧ tol * P.sigmaY < q - P.Y st.eqps ∧ 0 ≤ r.x ∧ (3 * shear P + P.Hk) * r.x ≤ q - P.Y st.eqps ∧
      ScalarSolver.solve (J2.residual P st.eqps q) (dresidual P st.eqps) ⟨0, tol * P.sigmaY, 25⟩ 0 0 ((q - P.Y st.eqps) / (3 * shear P + P.Hk)) = .ok r ∧
      update P st H = some (hooke P (e - (r.x * (3 / 2) / q) • η), ⟨st.plasticStrain + (r.x * (3 / 2) / q) • η, st.eqps + r.x⟩, some r) := by
  intro e η q
  have hG := shear_pos hP
  have ha : 0 < 3 * shear P + P.Hk := by linarith [hP.Hk]
  have hnu : ¬ (1 - 2 * P.nu = 0 ∨ 1 + P.nu = 0) := by
    rintro (h | h)
    · exact hP.nu' h
    · linarith [hP.nu]
  have htol : 0 < tol * P.sigmaY := mul_pos (by norm_num [tol]) hP.sigmaY
  unfold update
  rw [if_neg hnu, predictor_eq]
  dsimp only
  change (J2.residual P st.eqps q 0 ≤ tol * P.sigmaY ∧ (if J2.residual P st.eqps q 0 > tol * P.sigmaY then _ else _) = _) ∨ ∃ r : ScalarSolver.Result, _ ∧ _ ∧ _ ∧ _ ∧ _ ∧ (if J2.residual P st.eqps q 0 > tol * P.sigmaY then _ else _) = _
  by_cases hr : J2.residual P st.eqps q 0 > tol * P.sigmaY
  · right
    have hY := hP.nonneg st.eqps hst.eqps
    have hr0 : J2.residual P st.eqps q 0 = q - P.Y st.eqps := by simp [J2.residual]
    have hr' : tol * P.sigmaY < q - P.Y st.eqps := by rw [← hr0]; exact hr
    have hq : 0 < q := by linarith
    have hne : ¬ (3 * shear P + P.Hk = 0 ∨ q = 0) := by
      rintro (h | h)
      · exact ha.ne' h
      · exact hq.ne' h
    have hub : 0 ≤ (q - P.Y st.eqps) / (3 * shear P + P.Hk) := div_nonneg (by linarith) ha.le
    obtain ⟨r, hsol⟩ := solve_ok (f := J2.residual P st.eqps q) (f' := dresidual P st.eqps) (opt := ⟨0, tol * P.sigmaY, 25⟩) 0 0
      ((q - P.Y st.eqps) / (3 * shear P + P.Hk)) (by rw [hr0]; linarith) (by
        have hm := hP.mono st.eqps (st.eqps + (q - P.Y st.eqps) / (3 * shear P + P.Hk)) hst.eqps (by linarith)
        rw [J2.residual, mul_div_cancel₀ _ ha.ne']
        linarith) hub (by
        intro x hx _ h
        have := hP.deriv (st.eqps + x) (by linarith [hst.eqps])
        rw [dresidual] at h
        linarith)
    have hx := (C15.C15_result_partial 0 0 _ r hsol).1
    rw [Set.uIcc_of_le hub] at hx
    have hx2 : (3 * shear P + P.Hk) * r.x ≤ q - P.Y st.eqps := by
      have := (le_div_iff₀ ha).1 hx.2
      linarith
    refine ⟨r, hq, hr', hx.1, hx2, hsol, ?_⟩
    rw [if_pos hr, if_neg hne, hsol]
    dsimp only
    congr 2
    · rw [hooke_eq hP, deviator_sub e, deviator_smul, Matrix.trace_sub e, Matrix.trace_smul, deviator_of_traceless (trace_eta P e _ hst.trace),
        trace_eta P e _ hst.trace]
      funext i j
      simp only [identity_eq, Matrix.add_apply, Matrix.sub_apply, Matrix.smul_apply, smul_eq_mul, mul_zero, sub_zero]
      change 2 * shear P * deviator e i j - 2 * shear P * r.x * (3 / 2 * η i j / q) + bulk P * e.trace * (1 : M3) i j =
        2 * shear P * (deviator e i j - r.x * (3 / 2) / q * η i j) + bulk P * e.trace * (1 : M3) i j
      ring
    · congr 2
      funext i j
      simp only [Matrix.add_apply, Matrix.smul_apply, smul_eq_mul]
      change st.plasticStrain i j + r.x * (3 / 2 * η i j / q) = st.plasticStrain i j + r.x * (3 / 2) / q * η i j
      ring
  · left
    refine ⟨not_lt.1 hr, ?_⟩
    rw [if_neg hr, hooke_eq hP]
    congr 2

/-! ## The state after a plastic step -/

private theorem symm_sub {A B : M3} (hA : Aᵀ = A) (hB : Bᵀ = B) : (A - B)ᵀ = A - B := by rw [Matrix.transpose_sub, hA, hB]

/-- The relative stress is scaled back along its own direction. -/
theorem eta_after (P : Params) (e εp : M3) (hεp : εp.trace = 0) (x q : ℝ) (hq : q ≠ 0) :
    eta P (e - (x * (3 / 2) / q) • eta P e εp) (εp + (x * (3 / 2) / q) • eta P e εp) = (1 - (3 * shear P + P.Hk) * x / q) • eta P e εp := by
  have h := deviator_of_traceless (trace_eta P e εp hεp)
  generalize hη : eta P e εp = η at h ⊢
  rw [eta, deviator_sub, deviator_smul, h]
  have hη' : (2 * shear P) • deviator e - (2 / 3 * P.Hk) • εp = η := by rw [← hη, eta]
  have : (2 * shear P) • (deviator e - (x * (3 / 2) / q) • η) - (2 / 3 * P.Hk) • (εp + (x * (3 / 2) / q) • η) =
      ((2 * shear P) • deviator e - (2 / 3 * P.Hk) • εp) - ((2 * shear P + 2 / 3 * P.Hk) * (x * (3 / 2) / q)) • η := by
    simp only [smul_sub, smul_add, smul_smul, add_mul, add_smul]
    abel
  rw [this, hη', sub_smul, one_smul]
  congr 2
  field_simp

theorem deviator_hooke {P : Params} (h : Good P) (e : M3) : deviator (hooke P e) = (2 * shear P) • deviator e := by
  rw [hooke_eq h, deviator_add, deviator_smul, deviator_smul, deviator_one, smul_zero, add_zero, deviator_of_traceless (trace_deviator e)]

theorem sqrt_mul_frob_smul (c : ℝ) (hc : 0 ≤ c) (A : M3) : Real.sqrt (3 / 2) * frob (c • A) = c * (Real.sqrt (3 / 2) * frob A) := by
  rw [frob_smul c hc]
  ring

/-! ## Theorems -/

/-- **C32, always defined.**  For every admissible state and every displacement gradient the update returns a stress and a state (the root is
always bracketed and the solver never divides by zero). -/
theorem C32_defined {P : Params} (hP : Good P) {st : State} (hst : Adm st) (H : M3) : ∃ σ st' r, update P st H = some (σ, st', r) := by
  rcases update_cases hP hst H with ⟨-, h⟩ | ⟨r, -, -, -, -, -, h⟩
  · exact ⟨_, _, _, h⟩
  · exact ⟨_, _, _, h⟩

/-- **C32, the stress obeys Hooke's law** for the strain minus the *updated* plastic strain. -/
theorem C32_hooke {P : Params} (hP : Good P) {st st' : State} (hst : Adm st) {H σ : M3} {r : Option ScalarSolver.Result}
    (h : update P st H = some (σ, st', r)) : σ = hooke P (strain H - st'.plasticStrain) := by
  rcases update_cases hP hst H with ⟨-, h'⟩ | ⟨r', -, -, -, -, -, h'⟩ <;> rw [h'] at h <;> cases h
  · rfl
  · dsimp only
    rw [sub_sub]

/-- **C32, the internal state stays admissible and accumulated plastic strain never decreases**; it grows by `√(2/3)` times the norm of the
plastic strain increment, converged or not. -/
theorem C32_invariants {P : Params} (hP : Good P) {st st' : State} (hst : Adm st) {H σ : M3} {r : Option ScalarSolver.Result}
    (h : update P st H = some (σ, st', r)) :
    Adm st' ∧ st.eqps ≤ st'.eqps ∧ st'.eqps - st.eqps = Real.sqrt (2 / 3) * frob (st'.plasticStrain - st.plasticStrain) := by
  rcases update_cases hP hst H with ⟨-, h'⟩ | ⟨r', hq, -, hx, -, -, h'⟩ <;> rw [h'] at h <;> cases h
  · refine ⟨hst, le_refl _, ?_⟩
    simp [frob]
  · refine ⟨⟨?_, ?_, by linarith [hst.eqps]⟩, by dsimp only; linarith, ?_⟩
    · dsimp only
      rw [Matrix.transpose_add, Matrix.transpose_smul, hst.symm, symm_eta _ _ _ (symm_sub (strain_symm H) hst.symm) hst.symm]
    · dsimp only
      rw [Matrix.trace_add, Matrix.trace_smul, hst.trace, trace_eta _ _ _ hst.trace]
      simp
    · dsimp only
      rw [add_sub_cancel_left, add_sub_cancel_left]
      generalize eta P (strain H - st.plasticStrain) st.plasticStrain = η at hq ⊢
      have hx' := hx
      rw [frob_smul _ (by positivity)]
      have hs : Real.sqrt (2 / 3) * Real.sqrt (3 / 2) = 1 := by
        rw [← Real.sqrt_mul (by norm_num)]
        norm_num
      have h32 : Real.sqrt (3 / 2) * Real.sqrt (3 / 2) = 3 / 2 := Real.mul_self_sqrt (by norm_num)
      have h3 : 0 < Real.sqrt (3 / 2) := Real.sqrt_pos.2 (by norm_num)
      have hF : frob η ≠ 0 := fun h0 => by rw [h0] at hq; simp at hq
      generalize Real.sqrt (3 / 2) = a at hs h32 h3 ⊢
      generalize Real.sqrt (2 / 3) = b at hs ⊢
      rw [← h32]
      field_simp
      linear_combination (-r'.x) * hs

/-- **C32, elastic steps leave the internal state alone**, and are exactly the steps whose trial stress is inside the hardened yield surface
(to the tolerance). -/
theorem C32_elastic {P : Params} (hP : Good P) {st : State} (hst : Adm st) (H : M3) :
    (∃ σ, update P st H = some (σ, st, none)) ↔
      mises P.Hk (hooke P (strain H - st.plasticStrain)) st.plasticStrain - P.Y st.eqps ≤ tol * P.sigmaY := by
  have hm : mises P.Hk (hooke P (strain H - st.plasticStrain)) st.plasticStrain =
      Real.sqrt (3 / 2) * frob (eta P (strain H - st.plasticStrain) st.plasticStrain) := by
    rw [mises, deviator_hooke hP, eta]
  rw [hm]
  rcases update_cases hP hst H with ⟨h, h'⟩ | ⟨r, hq, h, -, -, -, h'⟩ <;> rw [h']
  · constructor
    · intro _
      simpa [J2.residual] using h
    · exact fun _ => ⟨_, rfl⟩
  · constructor
    · rintro ⟨σ, hσ⟩
      simp at hσ
    · intro h2
      linarith

/-- **C32, consistency.**  After a plastic step the distance to the hardened yield surface is the residual of the scalar solve at the point
it returned. -/
theorem C32_distance {P : Params} (hP : Good P) {st st' : State} (hst : Adm st) {H σ : M3} {r : ScalarSolver.Result}
    (h : update P st H = some (σ, st', some r)) : mises P.Hk σ st'.plasticStrain - P.Y st'.eqps = r.residual := by
  rcases update_cases hP hst H with ⟨-, h'⟩ | ⟨r', hq, hY, hx, hx2, hsol, h'⟩ <;> rw [h'] at h
  · simp at h
  · cases h
    have hres := (C15.C15_result_partial 0 0 _ r hsol).2.2.1
    rw [hres, mises, deviator_hooke hP]
    have := eta_after P (strain H - st.plasticStrain) st.plasticStrain hst.trace r.x _ hq.ne'
    rw [eta] at this
    dsimp only
    rw [this, sqrt_mul_frob_smul]
    · rw [J2.residual, sub_mul, one_mul, div_mul_cancel₀ _ hq.ne']
    · have hYn := hP.nonneg _ hst.eqps
      rw [sub_nonneg, div_le_one hq]
      linarith

/-- What convergence of the solve means here: the tolerance on the step is zero, so the residual test was met. -/
theorem converged_residual {P : Params} (hP : Good P) {st st' : State} (hst : Adm st) {H σ : M3} {r : ScalarSolver.Result}
    (h : update P st H = some (σ, st', some r)) (hc : r.converged = true) : |r.residual| < tol * P.sigmaY := by
  have htol : 0 < tol * P.sigmaY := mul_pos (by norm_num [tol]) hP.sigmaY
  rcases update_cases hP hst H with ⟨-, h'⟩ | ⟨r', hq, hY, hx, hx2, hsol, h'⟩ <;> rw [h'] at h
  · simp at h
  · cases h
    obtain ⟨-, -, hres, -, -, h3⟩ := C15.C15_result_partial 0 0 _ r hsol
    rw [hres]
    rcases h3 hc with h3 | h3 | ⟨s, -, -, h3⟩
    · rw [h3, abs_zero]
      exact htol
    · exact h3
    · exact absurd h3 (not_lt.2 (abs_nonneg _))

/-- **C32, on the yield surface** (partial: when the scalar solve converged; its status is not looked at by the code). -/
theorem C32_yield_partial {P : Params} (hP : Good P) {st st' : State} (hst : Adm st) {H σ : M3} {r : ScalarSolver.Result}
    (h : update P st H = some (σ, st', some r)) (hc : r.converged = true) :
    |mises P.Hk σ st'.plasticStrain - P.Y st'.eqps| < tol * P.sigmaY := by
  rw [C32_distance hP hst h]
  exact converged_residual hP hst h hc

/-- **C32, never outside** the hardened yield surface, beyond the tolerance (partial as before; elastic steps are covered too). -/
theorem C32_inside_partial {P : Params} (hP : Good P) {st st' : State} (hst : Adm st) {H σ : M3} {r : Option ScalarSolver.Result}
    (h : update P st H = some (σ, st', r)) (hc : ∀ r', r = some r' → r'.converged = true) :
    mises P.Hk σ st'.plasticStrain - P.Y st'.eqps ≤ tol * P.sigmaY := by
  cases r with
  | some r => exact (le_abs_self _).trans (C32_yield_partial hP hst h (hc r rfl)).le
  | none =>
    rcases update_cases hP hst H with ⟨-, h'⟩ | ⟨r', -, -, -, -, -, h'⟩ <;> rw [h'] at h
    · cases h
      exact (C32_elastic hP hst H).1 ⟨_, h'⟩
    · simp at h

/-- **C32, re-evaluation** at the same strain returns the same stress and leaves the state alone (partial as before). -/
theorem C32_repeat_partial {P : Params} (hP : Good P) {st st' : State} (hst : Adm st) {H σ : M3} {r : Option ScalarSolver.Result}
    (h : update P st H = some (σ, st', r)) (hc : ∀ r', r = some r' → r'.converged = true) : update P st' H = some (σ, st', none) := by
  have hadm := (C32_invariants hP hst h).1
  have hin := C32_inside_partial hP hst h hc
  have hσ := C32_hooke hP hst h
  rw [hσ] at hin
  obtain ⟨σ', h'⟩ := (C32_elastic hP hadm H).2 hin
  rw [h', hσ, C32_hooke hP hadm h']

/-- **C32, every strain history** keeps the state admissible, is defined, and never lowers the accumulated plastic strain. -/
theorem C32_history {P : Params} (hP : Good P) (Hs : List M3) {st : State} (hst : Adm st) :
    ∃ st', history P Hs st = some st' ∧ Adm st' ∧ st.eqps ≤ st'.eqps := by
  induction Hs generalizing st with
  | nil => exact ⟨st, rfl, hst, le_refl _⟩
  | cons H rest ih =>
    obtain ⟨σ, st1, r, h⟩ := C32_defined hP hst H
    obtain ⟨h1, h2, -⟩ := C32_invariants hP hst h
    obtain ⟨st', h3, h4, h5⟩ := ih h1
    refine ⟨st', ?_, h4, h2.trans h5⟩
    rw [history, h]
    exact h3

/-- **C32, linear hardening.**  The scalar solve always converges, in at most two steps, so the yield condition and the repeatability hold for
every admissible state and every strain. -/
theorem C32_linear {P : Params} (hP : Good P) (Hi : ℝ) (hH : 0 ≤ Hi) (hY : P.Y = linearHardening P.sigmaY Hi) (hdY : P.dY = fun _ => Hi)
    {st st' : State} (hst : Adm st) {H σ : M3} {r : Option ScalarSolver.Result} (h : update P st H = some (σ, st', r)) :
    mises P.Hk σ st'.plasticStrain - P.Y st'.eqps ≤ tol * P.sigmaY ∧
      (r.isSome → |mises P.Hk σ st'.plasticStrain - P.Y st'.eqps| < tol * P.sigmaY) ∧ update P st' H = some (σ, st', none) := by
  have hc : ∀ r', r = some r' → r'.converged = true := by
    rintro r' rfl
    rcases update_cases hP hst H with ⟨-, h'⟩ | ⟨r', hq, hq2, hx, hx2, hsol, h'⟩ <;> rw [h'] at h
    · simp at h
    · cases h
      have hG := shear_pos hP
      have htol : 0 < tol * P.sigmaY := mul_pos (by norm_num [tol]) hP.sigmaY
      generalize Real.sqrt (3 / 2) * frob (eta P (strain H - st.plasticStrain) st.plasticStrain) = q at hsol hq2
      obtain ⟨r2, h2, h3⟩ := solve_linear (q - P.Y st.eqps) (3 * shear P + P.Hk) Hi (tol * P.sigmaY) (by linarith) (by linarith [hP.Hk]) hH htol
      have e1 : J2.residual P st.eqps q = fun d => (q - P.Y st.eqps) - ((3 * shear P + P.Hk) + Hi) * d := by
        funext d
        rw [J2.residual, hY, linearHardening, linearHardening]
        ring
      have e2 : dresidual P st.eqps = fun _ => -((3 * shear P + P.Hk) + Hi) := by
        funext d
        rw [dresidual, hdY]
        ring
      rw [e1, e2, h2] at hsol
      cases hsol
      exact h3
  refine ⟨C32_inside_partial hP hst h hc, ?_, C32_repeat_partial hP hst h hc⟩
  cases r with
  | none => simp
  | some r => exact fun _ => C32_yield_partial hP hst h (hc r rfl)

/-! ### The three hardening laws -/

/-- Elastic part of `Good`. -/
structure GoodElastic (P : Params) : Prop where
  E : 0 < P.E
  nu : -1 < P.nu
  nu' : 1 - 2 * P.nu ≠ 0
  Hk : 0 ≤ P.Hk
  sigmaY : 0 < P.sigmaY

/-- A non-negative, increasing flow stress whose derivative dual numbers compute exactly. -/
theorem good_of_deriv {P : Params} (h : GoodElastic P) (h0 : 0 ≤ P.Y 0) (hd : ∀ a, 0 ≤ a → HasDerivAt P.Y (P.dY a) a)
    (hn : ∀ a, 0 ≤ a → 0 ≤ P.dY a) : Good P := by
  have hm : MonotoneOn P.Y (Set.Ici 0) := by
    refine monotoneOn_of_deriv_nonneg (convex_Ici 0) (fun a ha => (hd a ha).continuousAt.continuousWithinAt) ?_ ?_
    · intro a ha
      rw [interior_Ici] at ha
      exact (hd a ha.le).differentiableAt.differentiableWithinAt
    · intro a ha
      rw [interior_Ici] at ha
      rw [(hd a ha.le).deriv]
      exact hn a ha.le
  exact ⟨h.E, h.nu, h.nu', h.Hk, h.sigmaY, fun a ha => h0.trans (hm (Set.mem_Ici.2 le_rfl) (Set.mem_Ici.2 ha) ha),
    fun a b ha hab => hm (Set.mem_Ici.2 ha) (Set.mem_Ici.2 (ha.trans hab)) hab, hn⟩

/-- **C32, the hardening laws of the library are covered**: linear with `Hi ≥ 0`, power law with `n > 0`, `eps0 > 0`, and Voce with
`sigma_sat ≥ sigma_y` and a positive strain constant. -/
theorem C32_laws {P : Params} (h : GoodElastic P) :
    (∀ Hi, 0 ≤ Hi → P.Y = linearHardening P.sigmaY Hi → P.dY = (fun _ => Hi) → Good P) ∧
    (∀ n eps0, 0 < n → 0 < eps0 → P.Y = powerLawHardening P.sigmaY n eps0 → (∀ a, 0 ≤ a → HasDerivAt P.Y (P.dY a) a) → Good P) ∧
    (∀ sigmaSat c, P.sigmaY ≤ sigmaSat → 0 < c → P.Y = voceHardening P.sigmaY sigmaSat c → (∀ a, 0 ≤ a → HasDerivAt P.Y (P.dY a) a) →
      Good P) := by
  have hs := h.sigmaY
  refine ⟨fun Hi hH hY hdY => good_of_deriv h ?_ ?_ ?_, fun n e hn he hY hd => ?_, fun ss c hss hc hY hd => ?_⟩
  · rw [hY]
    simp [linearHardening, hs.le]
  · intro a _
    rw [hY, hdY]
    have := ((hasDerivAt_id a).const_mul Hi).const_add P.sigmaY
    rw [mul_one] at this
    exact this
  · intro a _
    rw [hdY]
    exact hH
  · refine good_of_deriv h ?_ hd fun a ha => ?_
    · rw [hY]
      simp [powerLawHardening, hs.le]
    · have hb : 0 < 1 + a / e := by positivity
      have h1 : HasDerivAt (fun a => 1 + a / e) (1 / e) a := by
        have := ((hasDerivAt_id a).div_const e).const_add 1
        simpa using this
      have h2 := (h1.rpow_const (p := 1 / n) (Or.inl hb.ne')).const_mul P.sigmaY
      have h3 := hd a ha
      rw [hY] at h3
      rw [h3.unique h2]
      positivity
  · refine good_of_deriv h ?_ hd fun a ha => ?_
    · rw [hY]
      simp [voceHardening, hs.le]
    · have h1 : HasDerivAt (fun a => -a / c) (-1 / c) a := (hasDerivAt_neg a).div_const c
      have h2 := ((h1.exp).const_mul (ss - P.sigmaY)).const_sub ss
      have h3 := hd a ha
      rw [hY] at h3
      rw [h3.unique h2]
      have : 0 ≤ ss - P.sigmaY := by linarith
      have e : -((ss - P.sigmaY) * (Real.exp (-a / c) * (-1 / c))) = (ss - P.sigmaY) * Real.exp (-a / c) / c := by ring
      rw [e]
      positivity

/-- **C32, softening is rejected.**  If the flow stress at the upper bound is below its current value, a plastic step ends in the solver's
"not bracketed" error. -/
theorem C32_softening {P : Params} {st : State} {H : M3} (h1 : tol * P.sigmaY < J2.residual P st.eqps (predictor P st H).2.2.2 0)
    (h0 : 0 ≤ tol * P.sigmaY)
    (h2 : P.Y (st.eqps + ((predictor P st H).2.2.2 - P.Y st.eqps) / (3 * shear P + P.Hk)) < P.Y st.eqps) : update P st H = none := by
  unfold update
  split
  · rfl
  · generalize hp : predictor P st H = p at h1 h2 ⊢
    obtain ⟨p, s, η, q⟩ := p
    dsimp only at h1 h2 ⊢
    rw [if_pos h1]
    split
    · rfl
    · rename_i hne
      have ha : 3 * shear P + P.Hk ≠ 0 := fun h => hne (Or.inl h)
      have : ScalarSolver.solve (J2.residual P st.eqps q) (dresidual P st.eqps) ⟨0, tol * P.sigmaY, 25⟩ 0 0
          ((q - P.Y st.eqps) / (3 * shear P + P.Hk)) = .notBracketed := by
        refine (C15.C15_not_bracketed _ _ _).2 (Or.inl ⟨by linarith, ?_⟩)
        rw [J2.residual, mul_div_cancel₀ _ ha]
        linarith
      rw [this]

/-! ### An unconverged solve -/

private def hh : ℝ := 1 / 2 ^ 30
private def Yw (a : ℝ) : ℝ := 1 + 10 * (a ^ 2 / (a ^ 2 + hh ^ 2))
private def dYw (a : ℝ) : ℝ := 10 * (2 * a * hh ^ 2 / (a ^ 2 + hh ^ 2) ^ 2)
private def Pw : Params := ⟨2, 0, 0, 1, Yw, dYw⟩
private def stw : State := ⟨0, 0⟩
private def Hw : M3 := fun i j => if i.1 + j.1 = 1 then 2 / Real.sqrt 3 else 0

private theorem hasDerivAt_Yw (a : ℝ) : HasDerivAt Yw (dYw a) a := by
  have hpos : a ^ 2 + hh ^ 2 ≠ 0 := by
    have : 0 < hh ^ 2 := by unfold hh; positivity
    positivity
  have h1 : HasDerivAt (fun a : ℝ => a ^ 2) (2 * a) a := by simpa using hasDerivAt_pow 2 a
  have := ((h1.div (h1.add_const (hh ^ 2)) hpos).const_mul 10).const_add 1
  have e : 10 * ((2 * a * (a ^ 2 + hh ^ 2) - a ^ 2 * (2 * a)) / (a ^ 2 + hh ^ 2) ^ 2) = dYw a := by
    unfold dYw
    ring
  rw [e] at this
  exact this

private theorem good_Pw : Good Pw := by
  refine good_of_deriv ⟨by norm_num [Pw], by norm_num [Pw], by norm_num [Pw], by norm_num [Pw], by norm_num [Pw]⟩ ?_
    (fun a _ => hasDerivAt_Yw a) ?_
  · simp [Pw, Yw]
  · intro a ha
    change 0 ≤ dYw a
    unfold dYw
    positivity

private def fw : ℝ → ℝ := J2.residual Pw 0 4
private def fw' : ℝ → ℝ := dresidual Pw 0

private theorem fw_eq (x : ℝ) : fw x = 3 - 3 * x - 10 * (x ^ 2 / (x ^ 2 + hh ^ 2)) := by
  simp only [fw, J2.residual, Pw, shear, Yw]
  norm_num
  ring

private theorem fw'_eq (x : ℝ) : fw' x = -3 - 10 * (2 * x * hh ^ 2 / (x ^ 2 + hh ^ 2) ^ 2) := by
  simp only [fw', dresidual, Pw, shear, dYw]
  norm_num

private theorem fw_far {x : ℝ} (hx : 1 / 2 ^ 25 ≤ x) : fw x ≤ -1 ∧ 0 < x * fw' x - fw x := by
  have hx0 : 0 < x := lt_of_lt_of_le (by positivity) hx
  have h1 : 1024 * hh ^ 2 ≤ x ^ 2 := by
    have : (1 / 2 ^ 25 : ℝ) ^ 2 ≤ x ^ 2 := pow_le_pow_left₀ (by positivity) hx 2
    unfold hh
    norm_num at this ⊢
    linarith
  have hh0 : 0 < hh ^ 2 := by unfold hh; positivity
  have hp : 0 < x ^ 2 + hh ^ 2 := by positivity
  set u := x ^ 2 / (x ^ 2 + hh ^ 2) with hu
  have hu1 : u ≤ 1 := (div_le_one hp).2 (by linarith)
  have hu2 : 99 / 100 ≤ u := by
    rw [hu, le_div_iff₀ hp]
    linarith
  have e : x * fw' x = -3 * x - 20 * (u * (1 - u)) := by
    rw [fw'_eq, hu]
    field_simp
    ring
  rw [e, fw_eq, ← hu]
  constructor
  · linarith
  · nlinarith

open ScalarSolver in
private theorem loop_w (n k : ℕ) (hk : k + n = 25) (hk1 : 1 ≤ k) (d1 d2 : ℝ) (i : ℕ) :
    ∃ s, loop fw fw' ⟨0, tol * Pw.sigmaY, 25⟩ n ⟨1 / 2 ^ k, 1 / 2 ^ k, 0, d1, d2, fw (1 / 2 ^ k), fw' (1 / 2 ^ k), i, false⟩ = some s ∧
      s.x = 1 / 2 ^ 25 ∧ s.converged = false := by
  induction n generalizing k d1 d2 i with
  | zero =>
    obtain rfl : k = 25 := by omega
    exact ⟨_, rfl, rfl, rfl⟩
  | succ n ih =>
    have hfar : ∀ j, j ≤ 25 → fw (1 / 2 ^ j) ≤ -1 ∧ 0 < 1 / 2 ^ j * fw' (1 / 2 ^ j) - fw (1 / 2 ^ j) := fun j hj =>
      fw_far (one_div_le_one_div_of_le (by positivity) (pow_le_pow_right₀ (by norm_num) hj))
    have hub : useBisection ⟨1 / 2 ^ k, 1 / 2 ^ k, 0, d1, d2, fw (1 / 2 ^ k), fw' (1 / 2 ^ k), i, false⟩ := by
      left
      dsimp only
      rw [sub_zero]
      exact (hfar k (by omega)).2
    have hx : (1 / 2 ^ k : ℝ) + 1 / 2 * (0 - 1 / 2 ^ k) = 1 / 2 ^ (k + 1) := by
      rw [pow_succ]
      field_simp
      norm_num
    have hne : ¬ ((1 / 2 ^ (k + 1) : ℝ) = 1 / 2 ^ k) := by
      have : (0 : ℝ) < 1 / 2 ^ k := by positivity
      have h2 : (1 / 2 ^ (k + 1) : ℝ) = 1 / 2 ^ k / 2 := by
        rw [pow_succ]
        field_simp
      intro h
      linarith
    have hf1 := (hfar (k + 1) (by omega)).1
    rw [loop, if_neg (by simp)]
    unfold body
    rw [if_pos hub]
    dsimp only
    rw [hx, Option.bind_some]
    have hfin : ∀ s : St, s.xh = 0 → ∀ dx, finish fw fw' ⟨0, tol * Pw.sigmaY, 25⟩ s dx (1 / 2 ^ (k + 1)) (decide ((1 / 2 ^ (k + 1) : ℝ) = 1 / 2 ^ k)) =
        ⟨1 / 2 ^ (k + 1), 1 / 2 ^ (k + 1), 0, s.deltaX, dx, fw (1 / 2 ^ (k + 1)), fw' (1 / 2 ^ (k + 1)), s.iterations + 1, false⟩ := by
      intro s hs dx
      have h3 : ¬ |fw (1 / 2 ^ (k + 1))| < tol * Pw.sigmaY := by
        rw [abs_of_neg (by linarith), not_lt]
        norm_num [tol, Pw]
        norm_num at hf1
        linarith
      have h4 : ¬ |dx| < 0 := not_lt.2 (abs_nonneg _)
      simp only [finish, if_pos (show fw (1 / 2 ^ (k + 1)) < 0 by linarith), hs, decide_eq_false hne, decide_eq_false h3, decide_eq_false h4,
        Bool.or_false]
    rw [hfin _ rfl]
    exact ih (k + 1) (by omega) (by omega) _ _ _

private theorem strain_Hw : strain Hw = Hw := by
  have : Hwᵀ = Hw := by
    ext i j
    simp [Hw, Matrix.transpose_apply, add_comm]
  rw [strain, this, ← two_smul ℝ, smul_smul]
  norm_num

private theorem q_w : Real.sqrt (3 / 2) * frob (eta Pw (strain Hw - stw.plasticStrain) stw.plasticStrain) = 4 := by
  have htr : Matrix.trace Hw = 0 := by simp [Matrix.trace, Hw, Fin.sum_univ_three]
  have e : eta Pw (strain Hw - stw.plasticStrain) stw.plasticStrain = (2 : ℝ) • Hw := by
    have h0 : stw.plasticStrain = (0 : M3) := rfl
    rw [h0, strain_Hw, sub_zero, eta, deviator_of_traceless htr]
    simp [Pw, shear]
  have e2 : frob Hw = Real.sqrt (8 / 3) := by
    have h3 : (2 / Real.sqrt 3) ^ 2 = 4 / 3 := by
      rw [div_pow, Real.sq_sqrt (by norm_num)]
      norm_num
    rw [frob]
    congr 1
    simp only [Fin.sum_univ_three, Hw]
    norm_num at h3 ⊢
    linarith
  rw [e, sqrt_mul_frob_smul _ (by norm_num), e2, ← Real.sqrt_mul (by norm_num)]
  have : (3 / 2 * (8 / 3) : ℝ) = 2 ^ 2 := by norm_num
  rw [this, Real.sqrt_sq (by norm_num)]
  norm_num

/-- **C32, the yield condition can fail.**  There are admissible moduli, a smooth increasing flow stress with its exact derivative, an
admissible state and a strain for which the scalar solve stops unconverged after its 25 iterations, the code carries on, and the stress it
returns is off the hardened yield surface by more than the initial yield stress. -/
theorem C32_unconverged_wrong : ∃ (P : Params) (st : State) (H σ : M3) (st' : State) (r : ScalarSolver.Result), Good P ∧ Adm st ∧
    (∀ a, HasDerivAt P.Y (P.dY a) a) ∧ update P st H = some (σ, st', some r) ∧ r.converged = false ∧
    P.sigmaY ≤ |mises P.Hk σ st'.plasticStrain - P.Y st'.eqps| := by
  have hadm : Adm stw := ⟨rfl, by simp [stw], le_refl _⟩
  have hsol : ∃ r, ScalarSolver.solve fw fw' ⟨0, tol * Pw.sigmaY, 25⟩ 0 0 1 = .ok r ∧ r.converged = false ∧ r.x = 1 / 2 ^ 25 := by
    have f0 : fw 0 = 3 := by simp [fw_eq]
    have f1 : fw 1 ≤ -1 := (fw_far (by norm_num)).1
    have d0 : fw' 0 = -3 := by simp [fw'_eq]
    have hst : ScalarSolver.start fw fw' 0 0 1 = ⟨0, 1, 0, 1, 1, 3, -3, 0, false⟩ := by
      have : ¬ ((0 : ℝ) < 0 ∨ (0 : ℝ) > 1) := by norm_num
      simp only [ScalarSolver.start, if_neg this, f0, d0]
      norm_num
    have hb : ScalarSolver.body fw fw' ⟨0, tol * Pw.sigmaY, 25⟩ ⟨0, 1, 0, 1, 1, 3, -3, 0, false⟩ =
        some ⟨1 / 2 ^ 1, 1 / 2 ^ 1, 0, 1, -(1 / 2), fw (1 / 2 ^ 1), fw' (1 / 2 ^ 1), 1, false⟩ := by
      have h1 := (fw_far (x := 1 / 2 ^ 1) (by norm_num)).1
      have h3 : ¬ |fw (1 / 2 ^ 1)| < tol * Pw.sigmaY := by
        rw [abs_of_neg (by linarith), not_lt]
        have : tol * Pw.sigmaY ≤ 1 := by norm_num [tol, Pw]
        linarith
      have hx : (1 : ℝ) + 1 / 2 * (0 - 1) = 1 / 2 ^ 1 := by norm_num
      have h4 : ¬ |1 / 2 * (0 - 1 : ℝ)| < 0 := not_lt.2 (abs_nonneg _)
      have h5 : ¬ ((1 / 2 ^ 1 : ℝ) = 1) := by norm_num
      unfold ScalarSolver.body
      rw [if_pos (by right; right; norm_num)]
      dsimp only
      rw [hx]
      simp only [ScalarSolver.finish, if_pos (show fw (1 / 2 ^ 1) < 0 by linarith), decide_eq_false h3, decide_eq_false h4, decide_eq_false h5,
        Bool.or_false]
      norm_num
    obtain ⟨s, h1, h2, h3⟩ := loop_w 24 1 rfl (le_refl _) 1 (-(1 / 2)) 1
    unfold ScalarSolver.solve
    rw [if_neg (by rw [f0]; linarith), if_neg (by rw [f0]; norm_num), if_neg (by linarith), hst]
    rw [ScalarSolver.loop, if_neg (by simp), hb, Option.bind_some, h1]
    exact ⟨_, rfl, h3, h2⟩
  rcases update_cases good_Pw hadm Hw with ⟨h, -⟩ | ⟨r, hq, hY, hx, hx2, hsol', h'⟩
  · exfalso
    rw [q_w] at h
    norm_num [J2.residual, Pw, shear, stw, Yw, tol, hh] at h
  · have hu : (4 - Pw.Y stw.eqps) / (3 * shear Pw + Pw.Hk) = 1 := by
      norm_num [Pw, shear, stw, Yw]
    rw [q_w, hu] at hsol'
    obtain ⟨r', h1, h2, h3⟩ := hsol
    have hrr : r = r' := by
      have : ScalarSolver.Outcome.ok r = .ok r' := hsol'.symm.trans h1
      cases this
      rfl
    subst hrr
    refine ⟨Pw, stw, Hw, _, _, r, good_Pw, hadm, hasDerivAt_Yw, h', h2, ?_⟩
    rw [C32_distance good_Pw hadm h']
    have hres := (C15.C15_result_partial _ _ _ r h1).2.2.1
    rw [hres, h3]
    have := (fw_far (le_refl (1 / 2 ^ 25 : ℝ))).1
    rw [abs_of_neg (by linarith)]
    change (1 : ℝ) ≤ _
    linarith

/-! ### Examples -/

/-- Linear hardening with an admissible state: a plastic step happens and ends on the yield surface. -/
example : ∃ (P : Params) (st : State), Good P ∧ Adm st ∧ ∃ σ st' r, update P st Hw = some (σ, st', some r) ∧
    |mises P.Hk σ st'.plasticStrain - P.Y st'.eqps| < tol * P.sigmaY := by
  let P : Params := ⟨2, 0, 0, 1, linearHardening 1 1, fun _ => 1⟩
  have hP : Good P := (C32_laws ⟨by norm_num [P], by norm_num [P], by norm_num [P], by norm_num [P], by norm_num [P]⟩).1 1 (by norm_num) rfl rfl
  have hadm : Adm stw := ⟨rfl, by simp [stw], le_refl _⟩
  have hq : Real.sqrt (3 / 2) * frob (eta P (strain Hw - stw.plasticStrain) stw.plasticStrain) = 4 := q_w
  refine ⟨P, stw, hP, hadm, ?_⟩
  rcases update_cases hP hadm Hw with ⟨h, -⟩ | ⟨r, -, -, -, -, -, h⟩
  · exfalso
    rw [hq] at h
    norm_num [J2.residual, P, shear, stw, linearHardening, tol] at h
  · exact ⟨_, _, r, h, (C32_linear hP 1 (by norm_num) rfl rfl hadm h).2.1 rfl⟩

end Serac.C32
