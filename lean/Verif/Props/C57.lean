import Verif.Model.FinitePlasticity
import Verif.Props.C32
import Verif.Props.C56
import Mathlib.Analysis.Complex.ExponentialBounds
/-!
# C57: finite deformation J2 plasticity

Spec.  `F = 1 + H` is the deformation gradient, `Fe = F Fpinv` its elastic part.  `hencky P C` is the stress of Hencky's law for the elastic
right Cauchy-Green tensor `C`: `2 G dev E + K tr E` with `E = ½ log C`, where `log C` is the symmetric matrix whose exponential is `C`.

`Exact` (C56) says that the eigenvalue algorithm decomposes a matrix exactly; C55 proves when it does and that it sometimes does not.
-/

noncomputable section
namespace Serac.C57
open Serac.Eigen hiding deviator norm_eq
open Serac.Tensor Serac.FiniteJ2 Serac.C55 Serac.C56
open Serac.C32 (frob deviator frob_smul frob_nonneg deviator_smul deviator_sub deviator_add deviator_one deviator_of_traceless trace_deviator)
open scoped Matrix
open NormedSpace (exp)

/-! ### Specification -/

structure Good (P : Params) : Prop where
  E : 0 < P.E
  nu : -1 < P.nu
  nu' : 1 - 2 * P.nu ≠ 0
  sigmaY : 0 < P.sigmaY
  nonneg : ∀ a, 0 ≤ a → 0 ≤ P.Y a
  mono : ∀ a b, 0 ≤ a → a ≤ b → P.Y a ≤ P.Y b
  deriv : ∀ a, 0 ≤ a → 0 ≤ P.dY a

/-- Admissible internal state: plastic flow preserves volume. -/
structure Adm (st : State) : Prop where
  volume : Matrix.det st.Fpinv = 1
  eqps : 0 ≤ st.eqps

/-- Elastic part of the deformation. -/
def elastic (st : State) (H : M3) : M3 := (1 + H) * st.Fpinv

/-- Elastic right Cauchy-Green tensor. -/
def green (st : State) (H : M3) : M3 := (elastic st H)ᵀ * elastic st H

/-- `M` is Hencky's stress for the tensor `C`. -/
def Hencky (P : Params) (C M : M3) : Prop :=
  ∃ E : M3, Eᵀ = E ∧ exp ((2 : ℝ) • E) = C ∧ M = (P.E / (1 + P.nu)) • deviator E + (P.E / (3 * (1 - 2 * P.nu)) * E.trace) • (1 : M3)

/-- The eigenvalue algorithm is exact where an evaluation uses it. -/
structure ExactStep (st : State) (H : M3) : Prop where
  green : Exact (C57.green st H)
  flow : ∀ L : M3, logSymm (C57.green st H) = some L → ∀ c ≤ (0 : ℝ), Exact (c • deviator L)

/-- Kirchhoff stress. -/
def kirchhoff (H σ : M3) : M3 := (1 + H).det • σ

/-- Equivalent stress. -/
def mises (τ : M3) : ℝ := Real.sqrt (3 / 2) * frob (deviator τ)

/-- Stored energy of the logarithmic strain `E`. -/
def energy (P : Params) (E : M3) : ℝ := P.E / (3 * (1 - 2 * P.nu)) / 2 * E.trace ^ 2 + P.E / (2 * (1 + P.nu)) * frob (deviator E) ^ 2

/-! ### The update as matrix expressions -/

/-- `update` with the final conversion of the stress left open. -/
def run (P : Params) (st : State) (C : M3) (k : M3 → ℝ → M3 → Option M3) : Option (M3 × State × Option ScalarSolver.Result) :=
  open Classical in
  if 1 - 2 * P.nu = 0 ∨ 1 + P.nu = 0 then none
  else (logSymm? C).bind fun L =>
    let p := bulk P * (L.trace / 2)
    let s : M3 := shear P • deviator L
    let q := Real.sqrt (3 / 2) * frob s
    if residual P st.eqps q 0 > tol * P.sigmaY then
      if 3 * shear P = 0 ∨ q = 0 then none
      else
        match ScalarSolver.solve (residual P st.eqps q) (dresidual P st.eqps) ⟨0, tol * P.sigmaY, 25⟩ 0 0 ((q - P.Y st.eqps) / (3 * shear P)) with
        | .ok r => (expSymm (-(r.x * (3 / 2) / q) • s : M3)).bind fun A =>
          (k ((1 - 3 * shear P * r.x / q) • s) p A).bind fun σ => some (σ, ⟨st.Fpinv * A, st.eqps + r.x⟩, some r)
        | _ => none
    else (k s p 1).bind fun σ => some (σ, st, none)

theorem cauchy_eq (s : M3) (p : ℝ) (Fe F : M3) :
    cauchy s p Fe F = if Fe.det = 0 ∨ F.det = 0 then none else some (F.det⁻¹ • ((Feᵀ)⁻¹ * (s + p • (1 : M3)) * Feᵀ)) := by
  have hM : @Eq M3 (fun i j => s i j + p * identity 3 i j) (s + p • (1 : M3)) := by rw [identity_eq]; rfl
  simp only [cauchy, hM, transpose_eq, inv3_eq, Matrix.det_transpose, det3_eq]
  by_cases h : Fe.det = 0
  · simp [h]
  · by_cases h' : F.det = 0
    · simp [h, h']
    · rw [if_neg h, if_neg (by tauto)]
      simp only [bind, Option.bind, pure]
      refine (if_neg h').trans (congrArg some ?_)
      funext i j
      rw [dot_eq, dot_eq, Matrix.smul_apply, smul_eq_mul, div_eq_inv_mul]

theorem update_eq (P : Params) (st : State) (H : M3) :
    update P st H = run P st (green st H) fun s p A => cauchy s p (elastic st H * A) (1 + H) := by
  have hF : @Eq M3 (fun i j => H i j + identity 3 i j) (1 + H) := by rw [identity_eq, add_comm]; rfl
  unfold update run
  by_cases hb : 1 - 2 * P.nu = 0 ∨ 1 + P.nu = 0
  · rw [if_pos hb, if_pos hb]
  rw [if_neg hb, if_neg hb]
  simp only [hF, dot_eq, transpose_eq, bind]
  change (logSymm? (green st H)).bind _ = (logSymm? (green st H)).bind _
  congr 1
  funext L
  have hE : @Eq M3 (fun i j => 1 / 2 * L i j) ((1 / 2 : ℝ) • L) := rfl
  have hs : @Eq M3 (fun i j => 2 * shear P * dev ((1 / 2 : ℝ) • L : M3) i j) (shear P • deviator L) := by
    funext i j
    rw [dev_eq]
    show 2 * shear P * (((1 / 2 : ℝ) • L : M3) i j - ((((1 / 2 : ℝ) • L : M3).trace / 3) • (1 : M3)) i j) = shear P * (L i j - ((L.trace / 3) • (1 : M3)) i j)
    rw [Matrix.trace_smul]
    simp only [Matrix.smul_apply, smul_eq_mul]
    ring
  rw [hE, hs, C32.norm_eq, tr_eq, Matrix.trace_smul, smul_eq_mul, show 1 / 2 * L.trace = L.trace / 2 by ring, Matrix.mul_one]
  generalize hS : (shear P • deviator L : M3) = S
  generalize hQ : Real.sqrt (3 / 2) * frob S = q
  by_cases hr : residual P st.eqps q 0 > tol * P.sigmaY
  · rw [if_pos hr, if_pos hr]
    by_cases hq : 3 * shear P = 0 ∨ q = 0
    · rw [if_pos hq, if_pos hq]
    · rw [if_neg hq, if_neg hq]
      cases ScalarSolver.solve (residual P st.eqps q) (dresidual P st.eqps) ⟨0, tol * P.sigmaY, 25⟩ 0 0 ((q - P.Y st.eqps) / (3 * shear P)) with
      | notBracketed => rfl
      | undefined => rfl
      | ok r =>
        have h1 : @Eq M3 (fun i j => S i j - 2 * shear P * r.x * (3 / 2 * S i j / q)) ((1 - 3 * shear P * r.x / q) • S) := by
          funext i j
          show _ = (1 - 3 * shear P * r.x / q) * S i j
          ring
        have h2 : @Eq M3 (fun i j => -r.x * (3 / 2 * S i j / q)) (-(r.x * (3 / 2) / q) • S) := by
          funext i j
          show _ = -(r.x * (3 / 2) / q) * S i j
          ring
        have hs' : ∀ i j, 2 * shear P * dev ((1 / 2 : ℝ) • L : M3) i j = S i j := fun i j => by rw [← hS, ← hs]
        dsimp only
        simp only [hs', h1, h2]
        rfl
  · rw [if_neg hr, if_neg hr]
    rfl

theorem log_some {C : M3} (hC : Cᵀ = C) {L : M3} (h : logSymm? C = some L) : Lᵀ = L ∧ logSymm C = some L := by
  obtain ⟨lam, Q, hq, -⟩ := C55_result C hC
  rw [logSymm?, hq, Option.bind_some] at h
  split at h
  · refine ⟨?_, h⟩
    rw [logSymm, function_eq hq] at h
    rw [← Option.some.inj h, sp_transpose]
  · cases h

theorem green_symm (st : State) (H : M3) : (green st H)ᵀ = green st H := by
  rw [green, Matrix.transpose_mul, Matrix.transpose_transpose]

theorem green_positive {st : State} {H : M3} (h : (elastic st H).det ≠ 0) : Positive (green st H) := by
  intro v hv
  have e : v ⬝ᵥ (green st H *ᵥ v) = (elastic st H *ᵥ v) ⬝ᵥ (elastic st H *ᵥ v) := by
    rw [green, ← Matrix.mulVec_mulVec, Matrix.dotProduct_mulVec, ← Matrix.mulVec_transpose, Matrix.transpose_transpose]
  rw [e]
  have hne : elastic st H *ᵥ v ≠ 0 := fun h0 => hv (Matrix.eq_zero_of_mulVec_eq_zero h h0)
  exact lt_of_le_of_ne (dot_self_nonneg _) fun h => hne (dotProduct_self_eq_zero.1 h.symm)

theorem log_defined {C : M3} (hC : Cᵀ = C) (hp : Positive C) : ∃ L, logSymm? C = some L ∧ Lᵀ = L ∧ logSymm C = some L := by
  obtain ⟨lam, Q, hq, -⟩ := C55_result C hC
  have hl := C55_positive C hC hp lam Q hq
  have : logSymm? C = some (sp Q fun k => Real.log (lam k)) := by
    rw [logSymm?, hq, Option.bind_some, if_pos hl, logSymm, function_eq hq]
  exact ⟨_, this, log_some hC this⟩

theorem det_sp {Q : M3} (h : Qᵀ * Q = 1) (v : V3) : (sp Q v).det = ∏ k, v k := by
  have hdet : Q.det * Q.det = 1 := by
    have := congrArg Matrix.det h
    rwa [Matrix.det_mul, Matrix.det_transpose, Matrix.det_one] at this
  rw [sp, Matrix.det_mul, Matrix.det_mul, Matrix.det_transpose, Matrix.det_diagonal]
  linear_combination (∏ k, v k) * hdet

/-- `exp_symm` of a symmetric matrix without trace has determinant one, whether or not the decomposition is exact. -/
theorem exp_defined {N : M3} (hN : Nᵀ = N) (ht : N.trace = 0) : ∃ A, expSymm N = some A ∧ Aᵀ = A ∧ A.det = 1 := by
  obtain ⟨lam, Q, hq, hQ, -, hsum⟩ := C55_result N hN
  refine ⟨_, by rw [expSymm, function_eq hq], sp_transpose _ _, ?_⟩
  rw [det_sp hQ, ← Real.exp_sum, hsum, ht, Real.exp_zero]

theorem shear_pos {P : Params} (h : Good P) : 0 < shear P := by
  have : 0 < 1 + P.nu := by linarith [h.nu]
  have hE := h.E
  unfold shear
  positivity

theorem deviator_symm {A : M3} (h : Aᵀ = A) : (deviator A)ᵀ = deviator A := by
  rw [deviator, Matrix.transpose_sub, Matrix.transpose_smul, Matrix.transpose_one, h]

/-- The quantities of one evaluation. -/
structure Trial (P : Params) (st : State) (H L s : M3) (q : ℝ) : Prop where
  log : logSymm (green st H) = some L
  symm : Lᵀ = L
  s_eq : s = shear P • deviator L
  q_eq : q = Real.sqrt (3 / 2) * frob s

/-- The stress returned for a deviatoric Mandel stress, a logarithm and an elastic deformation. -/
def stress (P : Params) (H Fe s L : M3) : M3 := (1 + H).det⁻¹ • ((Feᵀ)⁻¹ * (s + (bulk P * (L.trace / 2)) • (1 : M3)) * Feᵀ)

/-- The two ways an evaluation can end. -/
theorem update_cases {P : Params} (hP : Good P) {st : State} (hst : Adm st) (H : M3) (hH : (1 + H).det ≠ 0) : ∃ L s q, Trial P st H L s q ∧
    ((q - P.Y st.eqps ≤ tol * P.sigmaY ∧ update P st H = some (stress P H (elastic st H) s L, st, none)) ∨
    ∃ (r : ScalarSolver.Result) (A : M3), 0 < q ∧ tol * P.sigmaY < q - P.Y st.eqps ∧ 0 ≤ r.x ∧ 3 * shear P * r.x ≤ q - P.Y st.eqps ∧
      ScalarSolver.solve (residual P st.eqps q) (dresidual P st.eqps) ⟨0, tol * P.sigmaY, 25⟩ 0 0 ((q - P.Y st.eqps) / (3 * shear P)) = .ok r ∧
      expSymm (-(r.x * (3 / 2) / q) • s : M3) = some A ∧ Aᵀ = A ∧ A.det = 1 ∧
      update P st H = some (stress P H (elastic st H * A) ((1 - 3 * shear P * r.x / q) • s) L, ⟨st.Fpinv * A, st.eqps + r.x⟩, some r)) := by
  have hG := shear_pos hP
  have ha : 0 < 3 * shear P := by linarith
  have hnu : ¬ (1 - 2 * P.nu = 0 ∨ 1 + P.nu = 0) := by
    rintro (h | h)
    · exact hP.nu' h
    · linarith [hP.nu]
  have htol : 0 < tol * P.sigmaY := mul_pos (by norm_num [tol]) hP.sigmaY
  have hFe : (elastic st H).det ≠ 0 := by rw [elastic, Matrix.det_mul, hst.volume, mul_one]; exact hH
  obtain ⟨L, hL, hLs, hL'⟩ := log_defined (green_symm st H) (green_positive hFe)
  refine ⟨L, shear P • deviator L, _, ⟨hL', hLs, rfl, rfl⟩, ?_⟩
  rw [update_eq]
  unfold run
  rw [if_neg hnu, hL, Option.bind_some]
  dsimp only
  generalize hS : (shear P • deviator L : M3) = s
  have hss : sᵀ = s := by rw [← hS, Matrix.transpose_smul, deviator_symm hLs]
  have hst0 : s.trace = 0 := by rw [← hS, Matrix.trace_smul, trace_deviator, smul_zero]
  generalize hQ : Real.sqrt (3 / 2) * frob s = q
  have hr0 : residual P st.eqps q 0 = q - P.Y st.eqps := by simp [FiniteJ2.residual]
  by_cases hr : residual P st.eqps q 0 > tol * P.sigmaY
  · right
    have hY := hP.nonneg st.eqps hst.eqps
    have hr' : tol * P.sigmaY < q - P.Y st.eqps := by rw [← hr0]; exact hr
    have hq : 0 < q := by linarith
    have hne : ¬ (3 * shear P = 0 ∨ q = 0) := by
      rintro (h | h)
      · exact ha.ne' h
      · exact hq.ne' h
    have hub : 0 ≤ (q - P.Y st.eqps) / (3 * shear P) := div_nonneg (by linarith) ha.le
    obtain ⟨r, hsol⟩ := C32.solve_ok (f := residual P st.eqps q) (f' := dresidual P st.eqps) (opt := ⟨0, tol * P.sigmaY, 25⟩) 0 0
      ((q - P.Y st.eqps) / (3 * shear P)) (by rw [hr0]; linarith) (by
        have hm := hP.mono st.eqps (st.eqps + (q - P.Y st.eqps) / (3 * shear P)) hst.eqps (by linarith)
        rw [FiniteJ2.residual, mul_div_cancel₀ _ ha.ne']
        linarith) hub (by
        intro x hx _ h
        have := hP.deriv (st.eqps + x) (by linarith [hst.eqps])
        rw [dresidual] at h
        linarith)
    have hx := (C15.C15_result_partial 0 0 _ r hsol).1
    rw [Set.uIcc_of_le hub] at hx
    have hx2 : 3 * shear P * r.x ≤ q - P.Y st.eqps := by
      have := (le_div_iff₀ ha).1 hx.2
      linarith
    obtain ⟨A, hA, hAs, hAd⟩ := exp_defined (N := -(r.x * (3 / 2) / q) • s) (by rw [Matrix.transpose_smul, hss]) (by rw [Matrix.trace_smul, hst0, smul_zero])
    refine ⟨r, A, hq, hr', hx.1, hx2, hsol, hA, hAs, hAd, ?_⟩
    have hd : (elastic st H * A).det ≠ 0 := by rw [Matrix.det_mul, hAd, mul_one]; exact hFe
    rw [if_pos hr, if_neg hne, hsol]
    dsimp only
    rw [hA, Option.bind_some, cauchy_eq, if_neg (by rintro (h | h); exacts [hd h, hH h]), Option.bind_some]
    rfl
  · left
    refine ⟨by rw [← hr0]; exact not_lt.1 hr, ?_⟩
    rw [if_neg hr, Matrix.mul_one, cauchy_eq, if_neg (by rintro (h | h); exacts [hFe h, hH h]), Option.bind_some]
    rfl

/-! ### Theorems that need no exactness -/

/-- **Always defined** on every admissible state and every non-singular deformation: logarithms, inverses, the bracket of the root and the
divisions of the solver all exist. -/
theorem C57_defined {P : Params} (hP : Good P) {st : State} (hst : Adm st) (H : M3) (hH : (1 + H).det ≠ 0) : ∃ σ st' r, update P st H = some (σ, st', r) := by
  obtain ⟨L, s, q, -, ⟨-, h⟩ | ⟨r, A, -, -, -, -, -, -, -, -, h⟩⟩ := update_cases hP hst H hH
  · exact ⟨_, _, _, h⟩
  · exact ⟨_, _, _, h⟩

/-- **Plastic flow preserves volume** and the accumulated plastic strain never decreases. -/
theorem C57_invariants {P : Params} (hP : Good P) {st st' : State} (hst : Adm st) {H σ : M3} (hH : (1 + H).det ≠ 0) {r : Option ScalarSolver.Result}
    (h : update P st H = some (σ, st', r)) : Adm st' ∧ st.eqps ≤ st'.eqps := by
  obtain ⟨L, s, q, -, ⟨-, h'⟩ | ⟨r, A, -, -, hx, -, -, -, -, hA, h'⟩⟩ := update_cases hP hst H hH <;> rw [h'] at h <;> cases h
  · exact ⟨hst, le_rfl⟩
  · refine ⟨⟨?_, by have := hst.eqps; dsimp only; linarith⟩, by dsimp only; linarith⟩
    show (Matrix.det (st.Fpinv * A : M3)) = 1
    rw [Matrix.det_mul, hA, mul_one]
    exact hst.volume

/-- **Volume, for arbitrary parameters**: every evaluation that returns leaves the determinant of `Fpinv` unchanged. -/
theorem C57_volume (P : Params) (st st' : State) (H σ : M3) (r : Option ScalarSolver.Result) (h : update P st H = some (σ, st', r)) :
    Matrix.det st'.Fpinv = Matrix.det st.Fpinv := by
  rw [update_eq, run] at h
  split at h
  · cases h
  · obtain ⟨L, hL, h⟩ := Option.bind_eq_some_iff.1 h
    obtain ⟨hLs, -⟩ := log_some (green_symm st H) hL
    dsimp only at h
    split at h
    · split at h
      · cases h
      · split at h
        · obtain ⟨A, hA, h⟩ := Option.bind_eq_some_iff.1 h
          have hexp : ∀ c : ℝ, expSymm (c • shear P • deviator L : M3) = some A → A.det = 1 := fun c hc => by
            obtain ⟨A', hA', -, hd⟩ := exp_defined (N := c • shear P • deviator L) (by
              rw [Matrix.transpose_smul, Matrix.transpose_smul, deviator_symm hLs]) (by
              rw [Matrix.trace_smul, Matrix.trace_smul, trace_deviator, smul_zero, smul_zero])
            rw [hc] at hA'
            rw [Option.some.inj hA', hd]
          have hd := hexp _ hA
          obtain ⟨σ', -, h⟩ := Option.bind_eq_some_iff.1 h
          cases h
          show (Matrix.det (st.Fpinv * A : M3)) = Matrix.det st.Fpinv
          rw [Matrix.det_mul, hd, mul_one]
        · cases h
    · obtain ⟨σ', -, h⟩ := Option.bind_eq_some_iff.1 h
      cases h
      rfl

/-- **Every history** of non-singular deformations is defined, keeps the state admissible and never lowers the accumulated plastic strain. -/
theorem C57_history {P : Params} (hP : Good P) (Hs : List M3) (hH : ∀ H ∈ Hs, (1 + H).det ≠ 0) {st : State} (hst : Adm st) :
    ∃ st', history P Hs st = some st' ∧ Adm st' ∧ st.eqps ≤ st'.eqps := by
  induction Hs generalizing st with
  | nil => exact ⟨st, rfl, hst, le_refl _⟩
  | cons H rest ih =>
    have h0 := hH H (by simp)
    obtain ⟨σ, st1, r, h⟩ := C57_defined hP hst H h0
    obtain ⟨h1, h2⟩ := C57_invariants hP hst h0 h
    obtain ⟨st', h3, h4, h5⟩ := ih (fun H' h' => hH H' (by simp [h'])) h1
    refine ⟨st', ?_, h4, h2.trans h5⟩
    rw [history, h]
    exact h3

/-- **Singular deformations** have no result. -/
theorem C57_singular (P : Params) (st : State) (H : M3) (hH : (1 + H).det = 0) : update P st H = none := by
  rw [update_eq, run]
  have hk : ∀ s p A, cauchy s p (elastic st H * A) (1 + H) = none := fun s p A => by rw [cauchy_eq, if_pos (Or.inr hH)]
  simp only [hk]
  split
  · rfl
  · cases logSymm? (green st H) with
    | none => rfl
    | some L =>
      simp only [Option.bind_some, Option.bind_none]
      split
      · split
        · rfl
        · split
          · cases expSymm _ <;> rfl
          · rfl
      · rfl

/-- **Objectivity.**  Rotating the deformed body rotates the stress and leaves the internal state as it would have been, for all parameters and states. -/
theorem C57_objective (P : Params) (st : State) (H R : M3) (hR : Rᵀ * R = 1) (hd : R.det = 1) :
    update P st (R * (1 + H) - 1) = (update P st H).map fun o => (R * o.1 * Rᵀ, o.2) := by
  have hR' : R * Rᵀ = 1 := mul_eq_one_comm.1 hR
  have hF : 1 + (R * (1 + H) - 1) = R * (1 + H) := by abel
  have hel : elastic st (R * (1 + H) - 1) = R * elastic st H := by rw [elastic, hF, elastic, Matrix.mul_assoc]
  have hg : green st (R * (1 + H) - 1) = green st H := by
    rw [green, hel, Matrix.transpose_mul, Matrix.mul_assoc, ← Matrix.mul_assoc Rᵀ, hR, Matrix.one_mul, green]
  have hc : ∀ s p A, cauchy s p (R * elastic st H * A) (R * (1 + H)) = (cauchy s p (elastic st H * A) (1 + H)).map fun σ => R * σ * Rᵀ := by
    intro s p A
    rw [Matrix.mul_assoc R, cauchy_eq, cauchy_eq, Matrix.det_mul, Matrix.det_mul R, hd, one_mul, one_mul]
    split
    · rfl
    · rw [Option.map_some, Matrix.transpose_mul, Matrix.mul_inv_rev, Matrix.inv_eq_left_inv hR', Matrix.mul_smul, Matrix.smul_mul]
      simp only [Matrix.mul_assoc]
  rw [update_eq, update_eq, hg, hF, hel]
  simp only [hc, run]
  split
  · rfl
  · cases logSymm? (green st H) with
    | none => rfl
    | some L =>
      simp only [Option.bind_some]
      split
      · split
        · rfl
        · split
          · cases expSymm _ with
            | none => rfl
            | some A =>
              simp only [Option.bind_some]
              cases cauchy _ _ _ _ <;> rfl
          · rfl
      · cases cauchy _ _ _ _ <;> rfl

/-! ### Theorems for exact decompositions -/

theorem hencky_of {P : Params} (hP : Good P) {C L : M3} (hL : Lᵀ = L) (hC : exp L = C) : Hencky P C (shear P • deviator L + (bulk P * (L.trace / 2)) • (1 : M3)) := by
  have hp : 1 + P.nu ≠ 0 := by linarith [hP.nu]
  refine ⟨(1 / 2 : ℝ) • L, by rw [Matrix.transpose_smul, hL], by rw [smul_smul]; norm_num; exact hC, ?_⟩
  rw [deviator_smul, smul_smul, Matrix.trace_smul, smul_eq_mul, bulk, shear]
  congr 2
  · field_simp
  · ring

theorem hencky_unique {P : Params} {C M M' : M3} (h : Hencky P C M) (h' : Hencky P C M') : M = M' := by
  obtain ⟨E, hE, he, rfl⟩ := h
  obtain ⟨E', hE', he', rfl⟩ := h'
  have h2 := exp_injective ((2 : ℝ) • E) ((2 : ℝ) • E') (by rw [Matrix.transpose_smul, hE]) (by rw [Matrix.transpose_smul, hE']) (he.trans he'.symm)
  have : E = E' := smul_right_injective _ (two_ne_zero (α := ℝ)) h2
  rw [this]

theorem hencky_commute {P : Params} {C M : M3} (h : Hencky P C M) : Commute M C := by
  obtain ⟨E, hE, rfl, rfl⟩ := h
  have h1 : Commute E (exp ((2 : ℝ) • E)) := ((Commute.refl E).smul_right (2 : ℝ)).exp_right
  refine Commute.add_left ?_ ?_
  · exact (Commute.sub_left h1 ((Commute.one_left _).smul_left _)).smul_left _
  · exact (Commute.one_left _).smul_left _

theorem hencky_symm {P : Params} {C M : M3} (h : Hencky P C M) : Mᵀ = M := by
  obtain ⟨E, hE, rfl, rfl⟩ := h
  rw [Matrix.transpose_add, Matrix.transpose_smul, Matrix.transpose_smul, deviator_symm hE, Matrix.transpose_one]

/-- After the return map the elastic tensor is the exponential of the old logarithm plus twice the flow. -/
theorem green_after {st : State} {H A L N : M3} (hA : A = exp N) (hAs : Aᵀ = A) (hL : exp L = green st H) (hc : Commute L N) (e : ℝ) :
    exp (L + (2 : ℝ) • N) = green ⟨st.Fpinv * A, e⟩ H := by
  have h1 : green ⟨st.Fpinv * A, e⟩ H = A * green st H * A := by
    have : elastic ⟨st.Fpinv * A, e⟩ H = elastic st H * A := by rw [elastic, elastic, Matrix.mul_assoc]
    rw [green, this, Matrix.transpose_mul, hAs, green]
    simp only [Matrix.mul_assoc]
  rw [h1, ← hL, hA, two_smul, ← add_assoc, Matrix.exp_add_of_commute (L + N) N (hc.add_left (Commute.refl N)), add_comm L N,
    Matrix.exp_add_of_commute N L hc.symm]

/-- **The stress is Hencky's stress** for the elastic deformation that remains after the update, pushed forward. -/
theorem C57_stress_partial {P : Params} (hP : Good P) {st st' : State} (hst : Adm st) {H σ : M3} (hH : (1 + H).det ≠ 0) (hE : ExactStep st H)
    {r : Option ScalarSolver.Result} (h : update P st H = some (σ, st', r)) :
    ∃ M, Hencky P (green st' H) M ∧ kirchhoff H σ = ((elastic st' H)ᵀ)⁻¹ * M * (elastic st' H)ᵀ := by
  have hFe : (elastic st H).det ≠ 0 := by rw [elastic, Matrix.det_mul, hst.volume, mul_one]; exact hH
  have hk : ∀ Fe s L, kirchhoff H (stress P H Fe s L) = (Feᵀ)⁻¹ * (s + (bulk P * (L.trace / 2)) • (1 : M3)) * Feᵀ := fun Fe s L => by
    rw [kirchhoff, stress, smul_smul, mul_inv_cancel₀ hH, one_smul]
  obtain ⟨L, s, q, ⟨hL, hLs, rfl, hq⟩, hcase⟩ := update_cases hP hst H hH
  obtain ⟨L', hL', -, hexp, -⟩ := C56_logarithm _ hE.green (green_positive hFe)
  rw [hL] at hL'
  obtain rfl := Option.some.inj hL'
  rcases hcase with ⟨-, h'⟩ | ⟨r, A, hq0, -, hx, -, -, hA, hAs, -, h'⟩ <;> rw [h'] at h <;> cases h
  · exact ⟨_, hencky_of hP hLs hexp, hk _ _ _⟩
  · have hG := shear_pos hP
    set N : M3 := -(r.x * (3 / 2) / q) • (shear P • deviator L) with hN
    have hEx : Exact N := by
      rw [hN, smul_smul]
      refine hE.flow L hL _ ?_
      have : 0 ≤ r.x * (3 / 2) / q := by positivity
      nlinarith
    have hAe : A = exp N := Option.some.inj (hA.symm.trans (C56_exponential N hEx))
    have hc : Commute L N := by
      rw [hN]
      exact ((Commute.sub_right (Commute.refl L) ((Commute.one_right L).smul_right _)).smul_right _).smul_right _
    have hg := green_after (st := st) hAe hAs hexp hc (st.eqps + r.x)
    have hLN : (L + (2 : ℝ) • N)ᵀ = L + (2 : ℝ) • N := by
      rw [Matrix.transpose_add, hN, Matrix.transpose_smul, Matrix.transpose_smul, Matrix.transpose_smul, deviator_symm hLs, hLs]
    refine ⟨_, hencky_of hP hLN hg, ?_⟩
    rw [hk]
    have htr : (L + (2 : ℝ) • N).trace = L.trace := by
      rw [Matrix.trace_add, hN, Matrix.trace_smul, Matrix.trace_smul, Matrix.trace_smul, trace_deviator, smul_zero, smul_zero, smul_zero, add_zero]
    have hdev : shear P • deviator (L + (2 : ℝ) • N) = (1 - 3 * shear P * r.x / q) • shear P • deviator L := by
      rw [deviator_add, deviator_smul, hN, deviator_smul, deviator_smul, deviator_of_traceless (trace_deviator L)]
      simp only [smul_add, smul_smul, ← add_smul]
      congr 1
      field_simp
      ring
    have hel : elastic ⟨st.Fpinv * A, st.eqps + r.x⟩ H = elastic st H * A := by rw [elastic, elastic, Matrix.mul_assoc]
    rw [htr, hdev, hel]

theorem elastic_det {st : State} (hst : Adm st) {H : M3} (hH : (1 + H).det ≠ 0) : (elastic st H).det ≠ 0 := by
  rw [elastic, Matrix.det_mul, hst.volume, mul_one]; exact hH

theorem push_symm {Fe M : M3} (hd : Fe.det ≠ 0) (hM : Mᵀ = M) (hc : Commute M (Feᵀ * Fe)) : ((Feᵀ)⁻¹ * M * Feᵀ)ᵀ = (Feᵀ)⁻¹ * M * Feᵀ := by
  have hu : IsUnit Fe.det := isUnit_iff_ne_zero.2 hd
  have hu' : IsUnit (Feᵀ).det := by rw [Matrix.det_transpose]; exact hu
  have h1 : M * (Feᵀ * Fe) = Feᵀ * Fe * M := hc.eq
  rw [Matrix.transpose_mul, Matrix.transpose_mul, Matrix.transpose_transpose, hM, Matrix.transpose_nonsing_inv, Matrix.transpose_transpose]
  have h2 : Feᵀ * (Fe * (M * Fe⁻¹)) * Fe = Feᵀ * ((Feᵀ)⁻¹ * M * Feᵀ) * Fe := by
    have e1 : Feᵀ * (Fe * (M * Fe⁻¹)) * Fe = Feᵀ * Fe * M * (Fe⁻¹ * Fe) := by simp only [Matrix.mul_assoc]
    have e2 : Feᵀ * ((Feᵀ)⁻¹ * M * Feᵀ) * Fe = Feᵀ * (Feᵀ)⁻¹ * (M * (Feᵀ * Fe)) := by simp only [Matrix.mul_assoc]
    rw [e1, e2, Matrix.nonsing_inv_mul _ hu, Matrix.mul_nonsing_inv _ hu', Matrix.mul_one, Matrix.one_mul, h1]
  have h3 := congrArg (fun X => (Feᵀ)⁻¹ * X * Fe⁻¹) h2
  simp only [← Matrix.mul_assoc] at h3
  rw [Matrix.nonsing_inv_mul _ hu', Matrix.one_mul, Matrix.one_mul] at h3
  simp only [Matrix.mul_assoc] at h3 ⊢
  rw [Matrix.mul_nonsing_inv _ hu, Matrix.mul_one, Matrix.mul_one] at h3
  exact h3

/-- **The Cauchy stress is symmetric** (balance of angular momentum). -/
theorem C57_symmetric_partial {P : Params} (hP : Good P) {st st' : State} (hst : Adm st) {H σ : M3} (hH : (1 + H).det ≠ 0) (hE : ExactStep st H)
    {r : Option ScalarSolver.Result} (h : update P st H = some (σ, st', r)) : σᵀ = σ := by
  obtain ⟨M, hM, hk⟩ := C57_stress_partial hP hst hH hE h
  have hs := push_symm (elastic_det (C57_invariants hP hst hH h).1 hH) (hencky_symm hM) (hencky_commute hM)
  rw [← hk, kirchhoff, Matrix.transpose_smul] at hs
  exact smul_right_injective _ hH hs

theorem frob_trace {A : M3} (h : Aᵀ = A) : frob A = Real.sqrt ((A * A).trace) := by
  rw [frob]
  congr 1
  simp only [Matrix.trace, Matrix.diag, Matrix.mul_apply]
  exact Finset.sum_congr rfl fun i _ => Finset.sum_congr rfl fun j _ => by rw [sq, show A j i = A i j from congrFun (congrFun h i) j]

/-- Equivalent stress is the same before and after pushing forward. -/
theorem mises_push {Fe M : M3} (hd : Fe.det ≠ 0) (hM : Mᵀ = M) (hc : Commute M (Feᵀ * Fe)) : mises ((Feᵀ)⁻¹ * M * Feᵀ) = mises M := by
  have hu' : IsUnit (Feᵀ).det := by rw [Matrix.det_transpose]; exact isUnit_iff_ne_zero.2 hd
  have htr : ((Feᵀ)⁻¹ * M * Feᵀ).trace = M.trace := by
    rw [Matrix.trace_mul_comm, ← Matrix.mul_assoc, Matrix.mul_nonsing_inv _ hu', Matrix.one_mul]
  have hdev : deviator ((Feᵀ)⁻¹ * M * Feᵀ) = (Feᵀ)⁻¹ * deviator M * Feᵀ := by
    rw [deviator, deviator, htr, Matrix.mul_sub, Matrix.sub_mul, Matrix.mul_smul, Matrix.smul_mul, Matrix.mul_one, Matrix.nonsing_inv_mul _ hu']
  have hs := push_symm hd hM hc
  rw [mises, mises, frob_trace (deviator_symm hs), frob_trace (deviator_symm hM), hdev]
  congr 2
  have : (Feᵀ)⁻¹ * deviator M * Feᵀ * ((Feᵀ)⁻¹ * deviator M * Feᵀ) = (Feᵀ)⁻¹ * (deviator M * (Feᵀ * (Feᵀ)⁻¹) * deviator M * Feᵀ) := by simp only [Matrix.mul_assoc]
  rw [this, Matrix.mul_nonsing_inv _ hu', Matrix.mul_one, Matrix.trace_mul_comm, Matrix.mul_assoc (deviator M * deviator M), Matrix.mul_nonsing_inv _ hu', Matrix.mul_one]

theorem mises_hencky (s : M3) (hs : s.trace = 0) (p : ℝ) : mises (s + p • (1 : M3)) = Real.sqrt (3 / 2) * frob s := by
  rw [mises, deviator_add, deviator_smul, deviator_one, smul_zero, add_zero, deviator_of_traceless hs]

/-- **Consistency.**  After a plastic step the distance of the Kirchhoff stress to the hardened yield surface is the residual of the scalar solve. -/
theorem C57_distance_partial {P : Params} (hP : Good P) {st st' : State} (hst : Adm st) {H σ : M3} (hH : (1 + H).det ≠ 0) (hE : ExactStep st H)
    {r : ScalarSolver.Result} (h : update P st H = some (σ, st', some r)) : mises (kirchhoff H σ) - P.Y st'.eqps = r.residual := by
  obtain ⟨M, hM, hk⟩ := C57_stress_partial hP hst hH hE h
  have hd := elastic_det (C57_invariants hP hst hH h).1 hH
  obtain ⟨L, s, q, ⟨hL, hLs, rfl, hq⟩, ⟨-, h'⟩ | ⟨r', A, hq0, hy, hx, hx2, hsol, hA, hAs, hAd, h'⟩⟩ := update_cases hP hst H hH <;> rw [h'] at h
  · cases h
  · cases h
    have hres := (C15.C15_result_partial 0 0 _ r hsol).2.2.1
    have hel : elastic ⟨st.Fpinv * A, st.eqps + r.x⟩ H = elastic st H * A := by rw [elastic, elastic, Matrix.mul_assoc]
    have hd' : (elastic st H * A).det ≠ 0 := by rw [← hel]; exact hd
    have hM' : M = (1 - 3 * shear P * r.x / q) • (shear P • deviator L) + (bulk P * (L.trace / 2)) • (1 : M3) := by
      rw [kirchhoff, stress, smul_smul, mul_inv_cancel₀ hH, one_smul, hel] at hk
      have hu' : IsUnit ((elastic st H * A)ᵀ).det := by rw [Matrix.det_transpose]; exact isUnit_iff_ne_zero.2 hd'
      have := congrArg (fun X => (elastic st H * A)ᵀ * X * ((elastic st H * A)ᵀ)⁻¹) hk
      simp only [← Matrix.mul_assoc] at this
      rw [Matrix.mul_nonsing_inv _ hu', Matrix.one_mul, Matrix.one_mul] at this
      simp only [Matrix.mul_assoc] at this
      rw [Matrix.mul_nonsing_inv _ hu', Matrix.mul_one, Matrix.mul_one] at this
      exact this.symm
    rw [hk, mises_push hd (hencky_symm hM) (hencky_commute hM), hM', mises_hencky, hres]
    · have hY := hP.nonneg _ hst.eqps
      rw [C32.sqrt_mul_frob_smul, ← hq]
      · rw [FiniteJ2.residual, sub_mul, one_mul, div_mul_cancel₀ _ hq0.ne']
      · rw [sub_nonneg, div_le_one hq0]
        linarith
    · rw [Matrix.trace_smul, Matrix.trace_smul, trace_deviator, smul_zero, smul_zero]

/-- **Elastic steps** are exactly those whose Hencky stress is inside the hardened yield surface (to the tolerance). -/
theorem C57_elastic_partial {P : Params} (hP : Good P) {st : State} (hst : Adm st) {H M : M3} (hH : (1 + H).det ≠ 0) (hE : Exact (green st H))
    (hM : Hencky P (green st H) M) : (∃ σ, update P st H = some (σ, st, none)) ↔ mises M - P.Y st.eqps ≤ tol * P.sigmaY := by
  obtain ⟨L, s, q, ⟨hL, hLs, rfl, hq⟩, hcase⟩ := update_cases hP hst H hH
  obtain ⟨L', hL', -, hexp, -⟩ := C56_logarithm _ hE (green_positive (elastic_det hst hH))
  rw [hL] at hL'
  obtain rfl := Option.some.inj hL'
  have hm : mises M = q := by
    rw [hencky_unique hM (hencky_of hP hLs hexp), mises_hencky _ (by rw [Matrix.trace_smul, trace_deviator, smul_zero]), hq]
  rw [hm]
  rcases hcase with ⟨h, h'⟩ | ⟨r, A, -, h, -, -, -, -, -, -, h'⟩ <;> rw [h']
  · exact ⟨fun _ => h, fun _ => ⟨_, rfl⟩⟩
  · constructor
    · rintro ⟨σ, hσ⟩
      simp at hσ
    · intro h2
      linarith

/-- **On the yield surface** when the scalar solve converged. -/
theorem C57_yield_partial {P : Params} (hP : Good P) {st st' : State} (hst : Adm st) {H σ : M3} (hH : (1 + H).det ≠ 0) (hE : ExactStep st H)
    {r : ScalarSolver.Result} (h : update P st H = some (σ, st', some r)) (hc : r.converged = true) :
    |mises (kirchhoff H σ) - P.Y st'.eqps| < tol * P.sigmaY := by
  rw [C57_distance_partial hP hst hH hE h]
  have htol : 0 < tol * P.sigmaY := mul_pos (by norm_num [tol]) hP.sigmaY
  obtain ⟨L, s, q, -, ⟨-, h'⟩ | ⟨r', A, hq0, hy, hx, hx2, hsol, hA, hAs, hAd, h'⟩⟩ := update_cases hP hst H hH <;> rw [h'] at h
  · cases h
  · cases h
    obtain ⟨-, -, hres, -, -, h3⟩ := C15.C15_result_partial 0 0 _ r hsol
    rw [hres]
    rcases h3 hc with h3 | h3 | ⟨s, -, -, h3⟩
    · rw [h3, abs_zero]
      exact htol
    · exact h3
    · exact absurd h3 (not_lt.2 (abs_nonneg _))

/-- **Never outside** the hardened yield surface beyond the tolerance, elastic steps included. -/
theorem C57_inside_partial {P : Params} (hP : Good P) {st st' : State} (hst : Adm st) {H σ : M3} (hH : (1 + H).det ≠ 0) (hE : ExactStep st H)
    {r : Option ScalarSolver.Result} (h : update P st H = some (σ, st', r)) (hc : ∀ r', r = some r' → r'.converged = true) :
    mises (kirchhoff H σ) - P.Y st'.eqps ≤ tol * P.sigmaY := by
  cases r with
  | some r => exact (le_abs_self _).trans (C57_yield_partial hP hst hH hE h (hc r rfl)).le
  | none =>
    obtain ⟨M, hM, hk⟩ := C57_stress_partial hP hst hH hE h
    have hst' : st' = st := by
      obtain ⟨L, s, q, -, ⟨-, h'⟩ | ⟨r', A, -, -, -, -, -, -, -, -, h'⟩⟩ := update_cases hP hst H hH <;> rw [h'] at h <;> cases h
      rfl
    subst hst'
    rw [hk, mises_push (elastic_det hst hH) (hencky_symm hM) (hencky_commute hM)]
    exact (C57_elastic_partial hP hst hH hE.green hM).1 ⟨_, h⟩

/-- **Re-evaluation** with the updated state returns the same stress and does not repeat the return map. -/
theorem C57_repeat_partial {P : Params} (hP : Good P) {st st' : State} (hst : Adm st) {H σ : M3} (hH : (1 + H).det ≠ 0) (hE : ExactStep st H)
    {r : Option ScalarSolver.Result} (h : update P st H = some (σ, st', r)) (hE' : ExactStep st' H) (hc : ∀ r', r = some r' → r'.converged = true) :
    update P st' H = some (σ, st', none) := by
  have hadm := (C57_invariants hP hst hH h).1
  have hin := C57_inside_partial hP hst hH hE h hc
  obtain ⟨M, hM, hk⟩ := C57_stress_partial hP hst hH hE h
  rw [hk, mises_push (elastic_det hadm hH) (hencky_symm hM) (hencky_commute hM)] at hin
  obtain ⟨σ', h'⟩ := (C57_elastic_partial hP hadm hH hE'.green hM).2 hin
  obtain ⟨M', hM', hk'⟩ := C57_stress_partial hP hadm hH hE' h'
  rw [hencky_unique hM' hM, ← hk] at hk'
  rw [h', smul_right_injective _ hH hk']

/-- **Linear hardening.**  The scalar solve always converges, so the yield condition and the repeatability need no further hypothesis. -/
theorem C57_linear_partial {P : Params} (hP : Good P) (Hi : ℝ) (hHi : 0 ≤ Hi) (hY : P.Y = J2.linearHardening P.sigmaY Hi) (hdY : P.dY = fun _ => Hi)
    {st st' : State} (hst : Adm st) {H σ : M3} (hH : (1 + H).det ≠ 0) (hE : ExactStep st H) {r : Option ScalarSolver.Result}
    (h : update P st H = some (σ, st', r)) :
    mises (kirchhoff H σ) - P.Y st'.eqps ≤ tol * P.sigmaY ∧ (r.isSome → |mises (kirchhoff H σ) - P.Y st'.eqps| < tol * P.sigmaY) ∧
      (ExactStep st' H → update P st' H = some (σ, st', none)) := by
  have hc : ∀ r', r = some r' → r'.converged = true := by
    rintro r' rfl
    obtain ⟨L, s, q, -, ⟨-, h'⟩ | ⟨r', A, hq0, hy, hx, hx2, hsol, hA, hAs, hAd, h'⟩⟩ := update_cases hP hst H hH <;> rw [h'] at h
    · cases h
    · cases h
      have hG := shear_pos hP
      have htol : 0 < tol * P.sigmaY := mul_pos (by norm_num [tol]) hP.sigmaY
      obtain ⟨r2, h2, h3⟩ := C32.solve_linear (q - P.Y st.eqps) (3 * shear P) Hi (tol * P.sigmaY) (by linarith) (by linarith) hHi htol
      have e1 : FiniteJ2.residual P st.eqps q = fun d => (q - P.Y st.eqps) - (3 * shear P + Hi) * d := by
        funext d
        rw [FiniteJ2.residual, hY, J2.linearHardening, J2.linearHardening]
        ring
      have e2 : dresidual P st.eqps = fun _ => -(3 * shear P + Hi) := by
        funext d
        rw [dresidual, hdY]
        ring
      rw [e1, e2, h2] at hsol
      cases hsol
      exact h3
  refine ⟨C57_inside_partial hP hst hH hE h hc, ?_, fun hE' => C57_repeat_partial hP hst hH hE h hE' hc⟩
  cases r with
  | none => simp
  | some r => exact fun _ => C57_yield_partial hP hst hH hE h (hc r rfl)

/-! ### Energy -/

theorem trace_path {X : ℝ → M3} {dX : M3} {t : ℝ} (h : EntryDeriv X dX t) : HasDerivAt (fun s => (X s).trace) dX.trace t := by
  have := ((h 0 0).add (h 1 1)).add (h 2 2)
  have e : ∀ Y : M3, Y.trace = Y 0 0 + Y 1 1 + Y 2 2 := fun Y => by rw [Matrix.trace, Fin.sum_univ_three]; rfl
  rw [e]
  refine this.congr_of_eventuallyEq (Filter.Eventually.of_forall fun s => ?_)
  exact e _

theorem frob_deviator (E : M3) (hE : Eᵀ = E) : frob (deviator E) ^ 2 = (E * E).trace - E.trace ^ 2 / 3 := by
  rw [frob_trace (deviator_symm hE), Real.sq_sqrt]
  · rw [deviator, Matrix.sub_mul, Matrix.mul_sub, Matrix.mul_sub, Matrix.smul_mul, Matrix.one_mul, Matrix.mul_smul, Matrix.mul_one, Matrix.smul_mul, Matrix.one_mul]
    simp only [Matrix.trace_sub, Matrix.trace_smul, Matrix.trace_one, smul_eq_mul, Fintype.card_fin]
    push_cast
    ring
  · have h := deviator_symm hE
    have : (deviator E * deviator E).trace = ∑ i, ∑ j, deviator E i j ^ 2 := by
      simp only [Matrix.trace, Matrix.diag, Matrix.mul_apply]
      exact Finset.sum_congr rfl fun i _ => Finset.sum_congr rfl fun j _ => by rw [sq, show deviator E j i = deviator E i j from congrFun (congrFun h i) j]
    rw [this]
    positivity

theorem energy_path (P : Params) (E : ℝ → M3) (dE : M3) (t : ℝ) (h : EntryDeriv E dE t) (hs : ∀ᶠ s in nhds t, (E s)ᵀ = E s) :
    HasDerivAt (fun s => energy P (E s)) ((((P.E / (1 + P.nu)) • deviator (E t) + (P.E / (3 * (1 - 2 * P.nu)) * (E t).trace) • (1 : M3)) * dE).trace) t := by
  have h1 := trace_path h
  have h2 := trace_path (entry_mul h h)
  have h3 := ((h1.pow 2).const_mul (P.E / (3 * (1 - 2 * P.nu)) / 2)).add ((h2.sub ((h1.pow 2).div_const 3)).const_mul (P.E / (2 * (1 + P.nu))))
  refine (h3.congr_of_eventuallyEq (hs.mono fun s hs => ?_)).congr_deriv ?_
  · show energy P (E s) = _
    rw [energy, frob_deviator _ hs]
    rfl
  · rw [Matrix.trace_add, Matrix.trace_mul_comm dE (E t), Matrix.add_mul, deviator, Matrix.smul_mul, Matrix.smul_mul, Matrix.sub_mul, Matrix.smul_mul, Matrix.one_mul]
    simp only [Matrix.trace_add, Matrix.trace_sub, Matrix.trace_smul, smul_eq_mul]
    have : P.E / (1 + P.nu) = 2 * (P.E / (2 * (1 + P.nu))) := by
      rw [mul_comm 2 (1 + P.nu), ← div_div]
      ring
    rw [this]
    push_cast
    ring

/-- For isotropic functions the variation of the logarithm may be replaced by that of the tensor. -/
theorem log_variation {Q : M3} (hQ : Qᵀ * Q = 1) (e m : V3) (L : ℝ → M3) (dL dC : M3) (t : ℝ) (hL : EntryDeriv L dL t) (h : L t = sp Q e)
    (hC : EntryDeriv (fun s => exp (L s)) dC t) : (sp Q m * dL).trace = (sp Q (fun k => m k * Real.exp (-e k)) * dC).trace := by
  have hd : ∀ a b, (Qᵀ * dC * Q) a b = expSecant (e a) (e b) * (Qᵀ * dL * Q) a b := fun a b => by
    rw [entry_unique hC (exp_path L dL t hL), h]
    exact exp_basis hQ e dL a b
  have htr : ∀ (v : V3) (X : M3), (sp Q v * X).trace = ∑ k, v k * (Qᵀ * X * Q) k k := fun v X => by
    rw [sp, Matrix.mul_assoc, Matrix.mul_assoc, Matrix.trace_mul_comm, Matrix.mul_assoc]
    simp only [Matrix.trace, Matrix.diag, Matrix.diagonal_mul]
  rw [htr, htr]
  refine Finset.sum_congr rfl fun k _ => ?_
  rw [hd, C56_secants.2.1 (e k) trivial (e k) trivial |>.2]
  have hx : Real.exp (-e k) * Real.exp (e k) = 1 := by rw [← Real.exp_add, neg_add_cancel, Real.exp_zero]
  linear_combination -(m k * (Qᵀ * dL * Q) k k) * hx

/-- **The stress derives from the stored energy.**  With the internal state held at its value after the update, the derivative of the stored energy of the elastic strain
    along every path of deformations is the power of the stress: `dW = P : dH`, with `P` the first Piola-Kirchhoff stress. -/
theorem C57_energy_partial {P : Params} (hP : Good P) {st st' : State} (hst : Adm st) {H σ : M3} (hH : (1 + H).det ≠ 0) (hE : ExactStep st H)
    {r : Option ScalarSolver.Result} (h : update P st H = some (σ, st', r)) (path E : ℝ → M3) (dH : M3) (t : ℝ) (ht : path t = H) (hp : EntryDeriv path dH t)
    (hlog : ∀ᶠ s in nhds t, (E s)ᵀ = E s ∧ exp ((2 : ℝ) • E s) = green st' (path s)) :
    HasDerivAt (fun s => energy P (E s)) (∑ i, ∑ j, (kirchhoff H σ * ((1 + H)⁻¹)ᵀ : M3) i j * dH i j) t := by
  obtain ⟨M, ⟨E0, hE0s, hE0, hM⟩, hk⟩ := C57_stress_partial hP hst hH hE h
  have hst' := (C57_invariants hP hst hH h).1
  have hFe := elastic_det hst' hH
  obtain ⟨hts, hte⟩ := hlog.self_of_nhds
  have hEt : E t = E0 := by
    rw [ht] at hte
    have := exp_injective ((2 : ℝ) • E t) ((2 : ℝ) • E0) (by rw [Matrix.transpose_smul, hts]) (by rw [Matrix.transpose_smul, hE0s]) (hte.trans hE0.symm)
    exact smul_right_injective _ (two_ne_zero) this
  set B := st'.Fpinv with hB
  -- the path of elastic deformations
  have hF : EntryDeriv (fun s => elastic st' (path s)) (dH * B) t := fun i j => by
    have h0 : EntryDeriv (fun s => 1 + path s) dH t := fun i j => by
      exact (hp i j).const_add ((1 : M3) i j)
    have hc : EntryDeriv (fun _ => B) 0 t := fun i j => hasDerivAt_const t (B i j)
    have := entry_mul h0 hc i j
    rwa [Matrix.mul_zero, add_zero] at this
  have hFT : EntryDeriv (fun s => (elastic st' (path s))ᵀ) (dH * B)ᵀ t := fun i j => hF j i
  have hC := entry_mul hFT hF
  rw [ht] at hC
  set Fe := elastic st' H with hFedef
  obtain ⟨dL, hdL⟩ := log_path (fun s => green st' (path s)) (fun s => (2 : ℝ) • E s) _ t hC (hlog.mono fun s hs => ⟨by rw [Matrix.transpose_smul, hs.1], hs.2⟩)
  have hdE : EntryDeriv E ((1 / 2 : ℝ) • dL) t := fun i j => by
    have := (hdL i j).const_mul (1 / 2 : ℝ)
    refine this.congr_of_eventuallyEq (Filter.Eventually.of_forall fun s => ?_)
    show E s i j = 1 / 2 * (2 * E s i j)
    ring
  have hen := energy_path P E _ t hdE (hlog.mono fun s hs => hs.1)
  rw [hEt, ← hM, Matrix.mul_smul, Matrix.trace_smul, smul_eq_mul] at hen
  refine hen.congr_deriv ?_
  obtain ⟨Q, e, hQ, he⟩ := symm_sp E0 hE0s
  have hadd : ∀ v w : V3, sp Q v + sp Q w = sp Q (v + w) := fun v w => by
    simp only [sp, ← Matrix.add_mul, ← Matrix.mul_add]; rw [Matrix.diagonal_add]; rfl
  have hsmul : ∀ (c : ℝ) (v : V3), c • sp Q v = sp Q (c • v) := fun c v => by
    rw [sp, sp, Matrix.diagonal_smul, Matrix.mul_smul, Matrix.smul_mul]
  obtain ⟨m, hm⟩ : ∃ m, M = sp Q m := by
    rw [hM, deviator, he, ← sp_one hQ, sub_eq_add_neg, ← neg_smul]
    simp only [hsmul, hadd]
    exact ⟨_, rfl⟩
  have hCe : Feᵀ * Fe = sp Q fun k => Real.exp (2 * e k) := by
    have : green st' H = Feᵀ * Fe := rfl
    rw [← this, ← hE0, he, hsmul, sp_exp hQ]
    rfl
  have hu : IsUnit Fe.det := isUnit_iff_ne_zero.2 hFe
  have hu' : IsUnit (Feᵀ).det := by rw [Matrix.det_transpose]; exact hu
  have hlv := log_variation hQ (fun k => 2 * e k) m (fun s => (2 : ℝ) • E s) dL ((dH * B)ᵀ * Fe + Feᵀ * (dH * B)) t hdL
    (by show (2 : ℝ) • E t = _; rw [hEt, he, hsmul]; rfl)
    (fun i j => (hC i j).congr_of_eventuallyEq (hlog.mono fun s hs => congrFun (congrFun hs.2 i) j))
  rw [← hm] at hlv
  set X := sp Q (fun k => m k * Real.exp (-(2 * e k))) with hX
  have hXs : Xᵀ = X := sp_transpose _ _
  have hXC : X * (Feᵀ * Fe) = M := by
    rw [hCe, hX, sp_mul hQ, hm]
    congr 1
    funext k
    show m k * Real.exp (-(2 * e k)) * Real.exp (2 * e k) = m k
    rw [mul_assoc, ← Real.exp_add, neg_add_cancel, Real.exp_zero, mul_one]
  have hXF : X * Feᵀ = M * Fe⁻¹ := by
    rw [← hXC, Matrix.mul_assoc X, Matrix.mul_assoc Feᵀ, Matrix.mul_nonsing_inv _ hu, Matrix.mul_one]
  have h1 : (X * ((dH * B)ᵀ * Fe)).trace = (X * (Feᵀ * (dH * B))).trace := by
    rw [← Matrix.trace_transpose]
    simp only [Matrix.transpose_mul, hXs, Matrix.transpose_transpose]
    rw [← Matrix.mul_assoc, Matrix.trace_mul_comm]
  rw [hlv, Matrix.mul_add, Matrix.trace_add, h1, ← Matrix.mul_assoc, hXF]
  have hMs : Mᵀ = M := by rw [hm, sp_transpose]
  have hPk : kirchhoff H σ * ((1 + H)⁻¹)ᵀ = (Fe⁻¹)ᵀ * M * Bᵀ := by
    have huF : IsUnit ((1 + H)ᵀ).det := by rw [Matrix.det_transpose]; exact isUnit_iff_ne_zero.2 hH
    rw [hk, Matrix.transpose_nonsing_inv, Matrix.transpose_nonsing_inv, hFedef, elastic, ← hB, Matrix.transpose_mul, Matrix.mul_assoc, Matrix.mul_assoc Bᵀ,
      Matrix.mul_nonsing_inv _ huF, Matrix.mul_one]
  have hsum : ∀ Y : M3, ∑ i, ∑ j, Y i j * dH i j = (Yᵀ * dH).trace := fun Y => by
    simp only [Matrix.trace, Matrix.diag, Matrix.mul_apply, Matrix.transpose_apply]
    exact Finset.sum_comm
  rw [hPk, hsum]
  simp only [Matrix.transpose_mul, Matrix.transpose_transpose, hMs]
  rw [← Matrix.mul_assoc (M * Fe⁻¹), Matrix.trace_mul_comm (M * Fe⁻¹ * dH) B]
  simp only [Matrix.mul_assoc]
  ring

/-! ### Non-vacuity: a bar stretched to twice its length yields -/

def steel : Params := ⟨1, 0, 1 / 100, J2.linearHardening (1 / 100) 1, fun _ => 1⟩

theorem steel_good : Good steel := by
  refine ⟨by norm_num [steel], by norm_num [steel], by norm_num [steel], by norm_num [steel], fun a ha => ?_, fun a b _ hab => ?_, fun _ _ => by norm_num [steel]⟩
  · simp only [steel, J2.linearHardening]; linarith
  · simp only [steel, J2.linearHardening]; linarith

theorem initial_adm : Adm State.initial := ⟨by rw [State.initial, identity_eq, Matrix.det_one], le_rfl⟩

/-- Uniaxial tensors. -/
def axial (a b : ℝ) : M3 := Matrix.diagonal ![a, b, b]

theorem axial_exact (a b : ℝ) : Exact (axial a b) := by
  refine C55_repeated _ (Matrix.diagonal_transpose _) ![a, b, b] (fun x => ?_) rfl
  have : x • (1 : M3) - axial a b = Matrix.diagonal fun k => x - ![a, b, b] k := by
    ext i j
    by_cases h : i = j
    · subst h; simp [axial]
    · simp [axial, h]
  rw [this, Matrix.det_diagonal]

theorem axial_smul (c a b : ℝ) : c • axial a b = axial (c * a) (c * b) := by
  rw [axial, axial, ← Matrix.diagonal_smul]
  congr 1
  funext k; fin_cases k <;> rfl

theorem axial_mul (a b c d : ℝ) : axial a b * axial c d = axial (a * c) (b * d) := by
  rw [axial, axial, axial, Matrix.diagonal_mul_diagonal]
  congr 1
  funext k; fin_cases k <;> rfl

theorem axial_deviator (a b : ℝ) : deviator (axial a b) = axial (2 / 3 * (a - b)) (-(1 / 3) * (a - b)) := by
  rw [deviator, axial, Matrix.trace_diagonal, Fin.sum_univ_three]
  ext i j
  by_cases h : i = j
  · subst h
    fin_cases i <;> simp [axial] <;> ring
  · simp [axial, h]

theorem axial_exp (a b : ℝ) : exp (axial a b) = axial (Real.exp a) (Real.exp b) := by
  rw [axial, Matrix.exp_diagonal, axial]
  congr 1
  funext k
  rw [Pi.coe_exp, ← Real.exp_eq_exp_ℝ]
  fin_cases k <;> rfl

theorem axial_positive {a b : ℝ} (ha : 0 < a) (hb : 0 < b) : Positive (axial a b) := by
  have := sp_positive (Q := 1) (by simp) (v := ![a, b, b]) (by intro k; fin_cases k <;> simpa)
  rwa [sp, Matrix.one_mul, Matrix.transpose_one, Matrix.mul_one] at this

/-- Every uniaxial evaluation is exact. -/
theorem axial_step {st : State} {H : M3} {a b : ℝ} (ha : 0 < a) (hb : 0 < b) (h : green st H = axial a b) : ExactStep st H := by
  refine ⟨by rw [h]; exact axial_exact a b, fun L hL c _ => ?_⟩
  rw [h] at hL
  obtain ⟨L', hL', -, -, huniq⟩ := C56_logarithm _ (axial_exact a b) (axial_positive ha hb)
  rw [hL] at hL'
  obtain rfl := Option.some.inj hL'
  have := huniq (axial (Real.log a) (Real.log b)) (Matrix.diagonal_transpose _) (by rw [axial_exp, Real.exp_log ha, Real.exp_log hb])
  rw [← this, axial_deviator, axial_smul]
  exact axial_exact _ _

/-- `F = diag(2, 1, 1)` -/
def stretch : M3 := axial 1 0

theorem stretch_F : 1 + stretch = axial 2 1 := by
  ext i j
  by_cases h : i = j
  · subst h
    fin_cases i <;> simp [stretch, axial]; norm_num
  · simp [stretch, axial, h]

theorem stretch_det : (1 + stretch).det ≠ 0 := by
  rw [stretch_F, axial, Matrix.det_diagonal, Fin.prod_univ_three]; simp

theorem stretch_green : green State.initial stretch = axial 4 1 := by
  rw [green, elastic, stretch_F, State.initial]
  simp only [identity_eq, Matrix.mul_one]
  rw [show (axial 2 1)ᵀ = axial 2 1 from Matrix.diagonal_transpose _, axial_mul]
  norm_num

theorem stretch_exact : ExactStep State.initial stretch := axial_step (by norm_num) (by norm_num) stretch_green

/-- The bar yields, ends on the yield surface with a symmetric stress, and a second evaluation repeats the first. -/
example : ∃ σ st' r, update steel State.initial stretch = some (σ, st', some r) ∧ σᵀ = σ ∧ |mises (kirchhoff stretch σ) - (1 / 100 + st'.eqps)| < tol / 100 ∧
    update steel st' stretch = some (σ, st', none) := by
  obtain ⟨L, s, q, ⟨hL, hLs, rfl, hq⟩, hcase⟩ := update_cases steel_good initial_adm stretch stretch_det
  have hL0 : L = axial (Real.log 4) (Real.log 1) := by
    obtain ⟨L', hL', -, -, huniq⟩ := C56_logarithm _ stretch_exact.green (green_positive (elastic_det initial_adm stretch_det))
    rw [hL] at hL'
    obtain rfl := Option.some.inj hL'
    exact (huniq (axial (Real.log 4) (Real.log 1)) (Matrix.diagonal_transpose _) (by
      rw [axial_exp, Real.exp_log (by norm_num), Real.exp_log (by norm_num), stretch_green])).symm
  have hs : shear steel • deviator L = axial (1 / 3 * Real.log 4) (-(1 / 6) * Real.log 4) := by
    rw [hL0, axial_deviator, axial_smul, Real.log_one, sub_zero, show shear steel = 1 / 2 by norm_num [shear, steel]]
    congr 1 <;> ring
  rw [hs] at hq hcase
  have hlog : 1 < Real.log 4 := by
    rw [Real.lt_log_iff_exp_lt (by norm_num)]
    linarith [Real.exp_one_lt_d9]
  have hq2 : 1 / 4 < q := by
    have hf : 1 / 3 ≤ frob (axial (1 / 3 * Real.log 4) (-(1 / 6) * Real.log 4)) := by
      rw [frob]
      refine Real.le_sqrt_of_sq_le ?_
      simp only [axial, Fin.sum_univ_three]
      simp
      nlinarith
    have h1 : 1 ≤ Real.sqrt (3 / 2) := Real.le_sqrt_of_sq_le (by norm_num)
    rw [hq]
    nlinarith
  rcases hcase with ⟨hle, -⟩ | ⟨r, A, hq0, -, hx, hx2, -, hA, hAs, hAd, h⟩
  · have : q - (1 / 100 + 1 * 0) ≤ 1 / 10 ^ 10 * (1 / 100) := hle
    norm_num at this
    linarith
  · refine ⟨_, _, r, h, C57_symmetric_partial steel_good initial_adm stretch_det stretch_exact h, ?_, ?_⟩
    · have := (C57_linear_partial steel_good 1 (by norm_num) rfl rfl initial_adm stretch_det stretch_exact h).2.1 rfl
      simpa [steel, J2.linearHardening, div_eq_mul_inv] using this
    · refine (C57_linear_partial steel_good 1 (by norm_num) rfl rfl initial_adm stretch_det stretch_exact h).2.2 ?_
      rw [axial_smul] at hA
      have hA' : A = _ := Option.some.inj (hA.symm.trans (C56_exponential _ (axial_exact _ _)))
      rw [axial_exp] at hA'
      obtain ⟨u, v, hu, hv, hA'⟩ : ∃ u v : ℝ, 0 < u ∧ 0 < v ∧ A = axial u v := ⟨_, _, Real.exp_pos _, Real.exp_pos _, hA'⟩
      refine axial_step (a := (2 * u) * (2 * u)) (b := (1 * v) * (1 * v)) (by positivity) (by positivity) ?_
      rw [green, elastic, stretch_F, State.initial]
      simp only [identity_eq]
      rw [hA', Matrix.one_mul, axial_mul, show ∀ x y, (axial x y)ᵀ = axial x y from fun _ _ => Matrix.diagonal_transpose _, axial_mul]

/-- A bar stretched slightly stays elastic, and the derivative of the stored energy `s²/2` gives its stress. -/
example : ∃ σ, update steel State.initial (axial (Real.exp (1 / 1000) - 1) 0) = some (σ, State.initial, none) ∧ Real.exp (1 / 1000) * σ 0 0 = 1 / 1000 := by
  have hF : ∀ s, 1 + axial (Real.exp s - 1) 0 = axial (Real.exp s) 1 := fun s => by
    rw [axial, axial, ← Matrix.diagonal_one, Matrix.diagonal_add]
    congr 1
    funext i
    fin_cases i <;> simp
  have hg : ∀ s, green State.initial (axial (Real.exp s - 1) 0) = axial (Real.exp (2 * s)) 1 := fun s => by
    rw [green, elastic, hF, State.initial]
    simp only [identity_eq]
    rw [Matrix.mul_one, show ∀ x y, (axial x y)ᵀ = axial x y from fun _ _ => Matrix.diagonal_transpose _, axial_mul, ← Real.exp_add, one_mul, two_mul]
  have hl : ∀ s, (axial s 0)ᵀ = axial s 0 ∧ exp ((2 : ℝ) • axial s 0) = green State.initial (axial (Real.exp s - 1) 0) := fun s =>
    ⟨Matrix.diagonal_transpose _, by rw [axial_smul, axial_exp, hg, mul_zero, Real.exp_zero]⟩
  have hd : (1 + axial (Real.exp (1 / 1000) - 1) 0).det = Real.exp (1 / 1000) := by
    rw [hF, axial, Matrix.det_diagonal, Fin.prod_univ_three]; simp
  have hdet : (1 + axial (Real.exp (1 / 1000) - 1) 0).det ≠ 0 := by rw [hd]; exact (Real.exp_pos _).ne'
  have hE := axial_step (Real.exp_pos _) one_pos (hg (1 / 1000))
  obtain ⟨σ, hσ⟩ := (C57_elastic_partial steel_good initial_adm hdet hE.green ⟨_, (hl _).1, (hl _).2, rfl⟩).2 (by
    have h1 : Real.sqrt (3 / 2) ≤ 2 := Real.sqrt_le_iff.2 ⟨by norm_num, by norm_num⟩
    rw [mises_hencky _ (by rw [Matrix.trace_smul, trace_deviator, smul_zero]), axial_deviator, axial_smul]
    have h2 : frob (axial (steel.E / (1 + steel.nu) * (2 / 3 * (1 / 1000 - 0))) (steel.E / (1 + steel.nu) * (-(1 / 3) * (1 / 1000 - 0)))) ≤ 1 / 500 := by
      rw [frob, Real.sqrt_le_iff]
      refine ⟨by norm_num, ?_⟩
      simp only [axial, Fin.sum_univ_three, steel]
      simp
      norm_num
    have h3 := frob_nonneg (axial (steel.E / (1 + steel.nu) * (2 / 3 * (1 / 1000 - 0))) (steel.E / (1 + steel.nu) * (-(1 / 3) * (1 / 1000 - 0))))
    have h4 : steel.Y State.initial.eqps = 1 / 100 := by simp [steel, J2.linearHardening, State.initial]
    have h5 : (0 : ℝ) ≤ tol * steel.sigmaY := by norm_num [tol, steel]
    rw [h4]
    nlinarith)
  refine ⟨σ, hσ, ?_⟩
  have hpath : EntryDeriv (fun s => axial (Real.exp s - 1) 0) (axial (Real.exp (1 / 1000)) 0) (1 / 1000) := fun i j => by
    by_cases h : i = j
    · subst h
      fin_cases i
      · simpa [axial] using (Real.hasDerivAt_exp (1 / 1000)).sub_const 1
      · simpa [axial] using hasDerivAt_const (1 / 1000 : ℝ) (0 : ℝ)
      · simpa [axial] using hasDerivAt_const (1 / 1000 : ℝ) (0 : ℝ)
    · simp only [axial, Matrix.diagonal_apply_ne _ h]
      exact hasDerivAt_const _ _
  have h := C57_energy_partial steel_good initial_adm hdet hE hσ (fun s => axial (Real.exp s - 1) 0) (fun s => axial s 0) _ (1 / 1000) rfl hpath
    (Filter.Eventually.of_forall hl)
  have he : (fun s => energy steel (axial s 0)) = fun s => s ^ 2 / 2 := by
    funext s
    rw [energy, frob_deviator _ (hl s).1, axial_mul]
    simp only [axial, Matrix.trace_diagonal, Fin.sum_univ_three, steel]
    simp
    ring
  rw [he] at h
  have h2 := h.unique (((hasDerivAt_pow 2 (1 / 1000 : ℝ)).div_const 2))
  have hinv : (axial (Real.exp (1 / 1000)) 1)⁻¹ = axial (Real.exp (-(1 / 1000))) 1 := Matrix.inv_eq_left_inv (by
    rw [axial_mul, ← Real.exp_add, neg_add_cancel, Real.exp_zero, one_mul, axial, ← Matrix.diagonal_one]
    congr 1
    funext i
    fin_cases i <;> simp)
  rw [hF, hinv, kirchhoff, hd, show ∀ x y, (axial x y)ᵀ = axial x y from fun _ _ => Matrix.diagonal_transpose _] at h2
  have hsum : ∀ (X : M3) (a : ℝ), ∑ i, ∑ j, X i j * axial a 0 i j = X 0 0 * a := fun X a => by
    have : ∀ i, ∑ j, X i j * axial a 0 i j = X i i * ![a, 0, 0] i := fun i => by
      rw [Finset.sum_eq_single i (fun j _ hj => by rw [axial, Matrix.diagonal_apply_ne' _ hj, mul_zero]) (by simp), axial, Matrix.diagonal_apply_eq]
    simp only [this, Fin.sum_univ_three]
    simp
  rw [hsum, axial, Matrix.mul_diagonal, Matrix.smul_apply, smul_eq_mul] at h2
  have hx : Real.exp (-(1 / 1000)) * Real.exp (1 / 1000) = 1 := by rw [← Real.exp_add, neg_add_cancel, Real.exp_zero]
  norm_num at h2 hx ⊢
  linear_combination h2 - Real.exp (1 / 1000) * σ 0 0 * hx

/-- Stretch, unload, stretch. -/
example : ∃ st', history steel [stretch, 0, stretch] State.initial = some st' ∧ Adm st' :=
  let ⟨st', h, h', _⟩ := C57_history steel_good [stretch, 0, stretch] (by
    intro H hH
    simp only [List.mem_cons, List.not_mem_nil, or_false] at hH
    rcases hH with rfl | rfl | rfl
    · exact stretch_det
    · simp
    · exact stretch_det) initial_adm
  ⟨st', h, h'⟩

end Serac.C57
