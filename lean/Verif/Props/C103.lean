import Verif.Model.FinitePlasticityDual
import Verif.Props.C13
import Verif.Props.C57
import Verif.Props.C60
/-!
# C103: tangent of finite deformation plasticity

`J2` (`/repo/src/serac/physics/materials/solid_material.hpp:260-326`) called with dual numbers, which is how the stiffness matrix is assembled.

**Spec.**  `ElasticStress` and `Return` say, by Hencky's law, the matrix exponential and the equivalent stress (C57), what the stress of an elastic step and of an exact return mapping
is; `RepM` (C60) that a matrix of dual numbers has the values and derivatives of a path of matrices at a time.  Paths are arbitrary, so a theorem about them covers all directions.

**Violated.**  `C103_band_wrong`: next to the yield surface the solver accepts its first bisection point, as in C60; the derivative returned is that of the exact increment.

**Missing.**  For hardening that is not linear, `C103_tangent_partial` compares with the exact return mapping of a flow stress shifted by the final residual.  Steps whose scalar solve
did not converge: only `C103_value`.  Where `eig_symm` is not exact (C55) nothing is said about derivatives.
-/

noncomputable section
namespace Serac.C103
open Serac.Eigen hiding deviator norm_eq
open Serac.Tensor Serac.FiniteJ2 Serac.C55 Serac.C56 Serac.C57
open Serac.J2 (MatD zeroD trD devD normD)
open Serac.C60 (Rep RepM φ₁ implicit)
open Serac.C32 (frob deviator frob_smul frob_nonneg deviator_smul deviator_add deviator_of_traceless trace_deviator)
open scoped Matrix Topology
open NormedSpace (exp)

/-! ## Specification -/

/-- Stress of an elastic deformation. -/
def ElasticStress (P : Params) (st : State) (H σ : M3) : Prop :=
  ∃ M, Hencky P (green st H) M ∧ kirchhoff H σ = ((elastic st H)ᵀ)⁻¹ * M * (elastic st H)ᵀ

/-- Exact return mapping for the flow stress `Y`: a flow of size `δ ≥ 0` along the deviator of the trial stress `M₀`, to the flow stress after it; the stress is Hencky's for the elastic
deformation that remains. -/
def Return (P : Params) (Y : ℝ → ℝ) (st : State) (H σ : M3) : Prop :=
  ∃ M₀ δ, Hencky P (green st H) M₀ ∧ 0 ≤ δ ∧ mises M₀ - 3 * shear P * δ = Y (st.eqps + δ) ∧
    ElasticStress P ⟨st.Fpinv * exp (-(δ * (3 / 2) / mises M₀) • deviator M₀ : M3), st.eqps + δ⟩ H σ

/-! ## Dual matrices -/

theorem rep_iff {d : Dual ℝ} {f : ℝ → ℝ} {t : ℝ} : Rep φ₁ t d f ↔ d.value = f t ∧ HasDerivAt f d.gradient t := Iff.rfl

section rep
variable {t : ℝ} {A B : MatD ℝ} {F F' : ℝ → M3}

theorem rep_addR {d : Dual ℝ} {f : ℝ → ℝ} (h : Rep φ₁ t d f) (c : ℝ) : Rep φ₁ t (d.addR c) fun x => f x + c :=
  ⟨by simp [Dual.addR, h.1], h.2.add_const c⟩

theorem rep_neg {d : Dual ℝ} {f : ℝ → ℝ} (h : Rep φ₁ t d f) : Rep φ₁ t d.neg fun x => -f x :=
  ⟨by simp [Dual.neg, h.1], by rw [Dual.neg, map_neg]; exact h.2.neg⟩

theorem val_of (h : RepM φ₁ t A F) : val A = F t := by
  funext i j
  exact (h i j).1

theorem entry_of (h : RepM φ₁ t A F) : EntryDeriv F (grad A) t := fun i j => (rep_iff.1 (h i j)).2

theorem rep_dotDR (h : RepM φ₁ t A F) (B : M3) : RepM φ₁ t (dotDR A B) fun x => F x * B := fun i j => by
  have e : dotDR A B i j = ((zeroD.add ((A i 0).mulR (B 0 j))).add ((A i 1).mulR (B 1 j))).add ((A i 2).mulR (B 2 j)) := rfl
  rw [e]
  refine (((Rep.zero.add ((h i 0).mulR _)).add ((h i 1).mulR _)).add ((h i 2).mulR _)).congr fun x => ?_
  beta_reduce
  rw [Matrix.mul_apply, Fin.sum_univ_three]
  ring

theorem rep_dotDD (h : RepM φ₁ t A F) (h' : RepM φ₁ t B F') : RepM φ₁ t (dotDD A B) fun x => F x * F' x := fun i j => by
  have e : dotDD A B i j = ((zeroD.add ((A i 0).mul (B 0 j))).add ((A i 1).mul (B 1 j))).add ((A i 2).mul (B 2 j)) := rfl
  rw [e]
  refine (((Rep.zero.add ((h i 0).mul (h' 0 j))).add ((h i 1).mul (h' 1 j))).add ((h i 2).mul (h' 2 j))).congr fun x => ?_
  beta_reduce
  rw [Matrix.mul_apply, Fin.sum_univ_three]
  ring

theorem rep_transpose (h : RepM φ₁ t A F) : RepM φ₁ t (transposeD A) fun x => (F x)ᵀ := fun i j => h j i

theorem rep_det (h : RepM φ₁ t A F) : Rep φ₁ t (detDual A) fun x => (F x).det := by
  unfold detDual
  refine ((((((((h 0 0).mul (h 1 1)).mul (h 2 2)).add (((h 0 1).mul (h 1 2)).mul (h 2 0))).add (((h 0 2).mul (h 1 0)).mul (h 2 1))).sub
    (((h 0 0).mul (h 1 2)).mul (h 2 1))).sub (((h 0 1).mul (h 1 0)).mul (h 2 2))).sub (((h 0 2).mul (h 1 1)).mul (h 2 0))).congr fun x => ?_
  beta_reduce
  rw [Matrix.det_fin_three]
  ring

theorem rep_inv (h : RepM φ₁ t A F) (hd : (F t).det ≠ 0) : ∃ B, invDual inv3 A = some B ∧ RepM φ₁ t B fun x => (F x)⁻¹ := by
  obtain ⟨B, h1, h2⟩ := C13.C13_inv_dual φ₁ t F A (fun i j => (h i j).1) (fun i j => (h i j).2) hd inv3 (by rw [inv3_eq]; simp [hd])
  exact ⟨B, h1, fun i j => ⟨(h2 i j).1, (h2 i j).2⟩⟩

/-- The logarithm. -/
theorem rep_log {L : ℝ → M3} (h : RepM φ₁ t A F) (hE : Exact (F t)) (hL : ∀ᶠ x in 𝓝 t, (L x)ᵀ = L x ∧ exp (L x) = F x) :
    ∃ B, logSymmD A = some B ∧ RepM φ₁ t B L := by
  obtain ⟨X, h1, h2⟩ := C56_log_derivative F L (grad A) t hE (entry_of h) hL
  have ht := hL.self_of_nhds
  have hp : Positive (F t) := by
    obtain ⟨Q, x, hQ, hx⟩ := symm_sp (L t) ht.1
    rw [← ht.2, hx, sp_exp hQ]
    exact sp_positive hQ fun k => Real.exp_pos _
  have hs : (F t)ᵀ = F t := by rw [← ht.2, ← Matrix.exp_transpose, ht.1]
  obtain ⟨L', g1, g2, g3⟩ := log_defined hs hp
  obtain ⟨B, b1, -, -, b4⟩ := C56_logarithm (F t) hE hp
  have e : L' = L t := by
    rw [b4 (L t) ht.1 ht.2]
    rw [g3] at b1
    exact Option.some.inj b1
  refine ⟨fun i j => ⟨L t i j, X i j⟩, ?_, fun i j => rep_iff.2 ⟨rfl, h2 i j⟩⟩
  unfold logSymmD
  rw [val_of h, g1, e, Option.bind_some, h1]
  rfl

/-- The exponential. -/
theorem rep_exp (h : RepM φ₁ t A F) (hE : Exact (F t)) : ∃ B, expSymmD A = some B ∧ RepM φ₁ t B fun x => exp (F x) := by
  obtain ⟨X, h1, h2⟩ := C56_exp_derivative F (grad A) t hE (entry_of h)
  refine ⟨fun i j => ⟨exp (F t) i j, X i j⟩, ?_, fun i j => rep_iff.2 ⟨rfl, h2 i j⟩⟩
  unfold expSymmD
  rw [val_of h, C56_exponential _ hE, Option.bind_some, h1]
  rfl

/-- The conversion to Cauchy stress. -/
theorem rep_cauchy {s : MatD ℝ} {p : Dual ℝ} {Fe F₀ : MatD ℝ} {S fe f : ℝ → M3} {π : ℝ → ℝ} (hs : RepM φ₁ t s S) (hp : Rep φ₁ t p π) (hFe : RepM φ₁ t Fe fe)
    (hF : RepM φ₁ t F₀ f) (h1 : (fe t).det ≠ 0) (h2 : (f t).det ≠ 0) :
    ∃ σ, cauchyD s p Fe F₀ = some σ ∧ RepM φ₁ t σ fun x => (f x).det⁻¹ • (((fe x)ᵀ)⁻¹ * (S x + π x • (1 : M3)) * (fe x)ᵀ) := by
  obtain ⟨I, g1, g2⟩ := rep_inv (rep_transpose hFe) (by rw [Matrix.det_transpose]; exact h1)
  have hd := rep_det hF
  have hM : RepM φ₁ t (fun k l => (s k l).add ((Dual.mulL 1 p).mulR (if k = l then 1 else 0))) fun x => S x + π x • (1 : M3) := fun k l => by
    refine ((hs k l).add ((hp.mulL 1).mulR _)).congr fun x => ?_
    beta_reduce
    rw [Matrix.add_apply, Matrix.smul_apply, Matrix.one_apply, smul_eq_mul, one_mul]
  unfold cauchyD
  rw [g1, Option.bind_some, if_neg (by rw [hd.1]; exact h2)]
  refine ⟨_, rfl, fun i j => ?_⟩
  refine ((rep_dotDD (rep_dotDD g2 hM) (rep_transpose hFe) i j).div hd h2).congr fun x => ?_
  beta_reduce
  rw [Matrix.smul_apply, smul_eq_mul, div_eq_inv_mul]

/-! ### Values -/

theorem val_dotDR (A : MatD ℝ) (B : M3) : val (dotDR A B) = dot (val A) B := rfl
theorem val_dotDD (A B : MatD ℝ) : val (dotDD A B) = dot (val A) (val B) := rfl
theorem val_transposeD (A : MatD ℝ) : val (transposeD A) = transpose (val A) := rfl
theorem val_detDual (A : MatD ℝ) : (detDual A).value = det3 (val A) := rfl
theorem val_trD (A : MatD ℝ) : (trD A).value = tr (val A) := rfl
theorem val_normD (A : MatD ℝ) : (normD A).value = J2.norm (val A) := rfl

theorem val_devD (A : MatD ℝ) : val (devD A) = dev (val A) := by
  have h : RepM (0 : ℝ →ₗ[ℝ] (ℝ →L[ℝ] ℝ)) 0 A fun _ => val A := fun i j => ⟨rfl, by rw [LinearMap.zero_apply]; exact hasFDerivAt_const _ _⟩
  funext i j
  rw [val, (h.dev i j).1]
  rw [dev_eq]
  simp [deviator]

theorem val_log (A : MatD ℝ) : (logSymmD A).map val = logSymm? (val A) := by
  unfold logSymmD logSymm? logSymm matFunction matDerivative
  cases eigSymm (val A) with
  | none => rfl
  | some q =>
    simp only [Option.bind_some, Option.map_some]
    split_ifs <;> rfl

theorem val_exp (A : MatD ℝ) : (expSymmD A).map val = expSymm (val A) := by
  unfold expSymmD expSymm matFunction matDerivative
  cases eigSymm (val A) with
  | none => rfl
  | some q => rfl

theorem val_cauchy (s : MatD ℝ) (p : Dual ℝ) (Fe F : MatD ℝ) : (cauchyD s p Fe F).map val = cauchy (val s) p.value (val Fe) (val F) := by
  have e1 : invDual inv3 (transposeD Fe) = (inv3 (transpose (val Fe))).map fun invA i j => ⟨invA i j,
      Fin.foldl 3 (fun s k => Fin.foldl 3 (fun s l => s - invA l j • (invA i k • (transposeD Fe k l).gradient)) s) 0⟩ := rfl
  unfold cauchyD cauchy
  rw [e1, val_detDual]
  dsimp only
  cases inv3 (transpose (val Fe)) with
  | none => rfl
  | some I =>
    have e2 : (val fun k l => (s k l).add ((Dual.mulL 1 p).mulR (if k = l then 1 else 0))) = fun i j => val s i j + p.value * identity 3 i j := by
      funext i j
      simp only [val, Dual.add, Dual.mulL, Dual.mulR, one_mul, identity]
    by_cases hd : det3 (val F) = 0
    · simp [hd]
    · simp only [Option.map_some, Option.bind_some, if_neg hd]
      rw [← e2]
      simp only [bind, Option.bind_some]
      exact Eq.trans rfl (if_neg hd).symm

/-- **C103, derivatives do not disturb the update.**  Called with derivative-carrying numbers, the material stops exactly when the plain update stops, and otherwise returns the same
stress and the same internal state. -/
theorem C103_value (P : Params) (st : State) (du : MatD ℝ) :
    (updateD P st du).map (fun r => (val r.1, r.2)) = (update P st (val du)).map fun r => (r.1, r.2.1) := by
  unfold updateD update
  by_cases c1 : 1 - 2 * P.nu = 0 ∨ 1 + P.nu = 0
  · rw [if_pos c1, if_pos c1]; rfl
  rw [if_neg c1, if_neg c1]
  dsimp only
  set F : MatD ℝ := fun i j => (du i j).addR (1 * (if i = j then 1 else 0)) with hF
  have eF : (fun i j => val du i j + identity 3 i j) = val F := by
    funext i j
    simp only [hF, val, Dual.addR, one_mul, identity]
  rw [eF, ← val_dotDR, ← val_transposeD, ← val_dotDD, ← val_log]
  set Fe := dotDR F st.Fpinv
  cases logSymmD (dotDD (transposeD Fe) Fe) with
  | none => rfl
  | some L =>
    change (finishD P st F Fe L).map _ = _
    unfold finishD
    dsimp only
    simp only [Option.map_some, bind, Option.bind_some]
    set E : MatD ℝ := fun i j => .mulL (1 / 2) (L i j) with hE
    have eE : (fun i j => 1 / 2 * val L i j) = val E := rfl
    rw [eE, ← val_devD]
    generalize devD E = D
    set s : MatD ℝ := fun i j => Dual.mulL (2 * shear P) (D i j) with hs
    have es : (fun i j => 2 * shear P * val D i j) = val s := rfl
    rw [es]
    have eq : Real.sqrt (3 / 2) * J2.norm (val s) = (Dual.mulL (Real.sqrt (3 / 2)) (normD s)).value := rfl
    have ep : bulk P * tr (val E) = (Dual.mulL (bulk P) (trD E)).value := rfl
    rw [eq, ep]
    set q : Dual ℝ := Dual.mulL (Real.sqrt (3 / 2)) (normD s)
    set p : Dual ℝ := Dual.mulL (bulk P) (trD E)
    clear_value q p
    by_cases c2 : residual P st.eqps q.value 0 > tol * P.sigmaY
    · rw [if_pos c2, if_pos c2]
      by_cases c3 : 3 * shear P = 0 ∨ q.value = 0
      · rw [if_pos c3, if_pos c3]; rfl
      rw [if_neg c3, if_neg c3]
      cases ScalarSolver.solve (residual P st.eqps q.value) (dresidual P st.eqps) ⟨0, tol * P.sigmaY, 25⟩ 0 0 ((q.value - P.Y st.eqps) / (3 * shear P)) with
      | notBracketed => rfl
      | undefined => rfl
      | ok r =>
        dsimp only
        set N : MatD ℝ := fun i j => (rootDual P st.eqps q r).neg.mul ((Dual.mulL (3 / 2) (Dual.mulL (2 * shear P) (D i j))).div q) with hN
        have eN : (fun i j => -r.x * (3 / 2 * (2 * shear P * val D i j) / q.value)) = val N := rfl
        rw [eN, ← val_exp N]
        cases expSymmD N with
        | none => rfl
        | some A =>
          simp only [Option.map_some, Option.bind_some]
          rw [← val_dotDD]
          set s' : MatD ℝ := fun i j => (Dual.mulL (2 * shear P) (D i j)).sub ((Dual.mulL (2 * shear P) (rootDual P st.eqps q r)).mul
            ((Dual.mulL (3 / 2) (Dual.mulL (2 * shear P) (D i j))).div q))
          have es' : (fun i j => 2 * shear P * val D i j - 2 * shear P * r.x * (3 / 2 * (2 * shear P * val D i j) / q.value)) = val s' := rfl
          rw [es']
          rw [← val_cauchy]
          cases cauchyD s' p (dotDD Fe A) F <;> rfl
    · rw [if_neg c2, if_neg c2, ← val_cauchy]
      cases cauchyD s p Fe F <;> rfl

end rep

/-! ## The path of an evaluation -/

section path
variable {P : Params} {st : State} {t : ℝ} {du : MatD ℝ} {H : ℝ → M3}

theorem rep_F (h : RepM φ₁ t du H) : RepM φ₁ t (fun i j => (du i j).addR (1 * (if i = j then 1 else 0))) fun x => 1 + H x := fun i j => by
  refine (rep_addR (h i j) _).congr fun x => ?_
  beta_reduce
  rw [Matrix.add_apply, Matrix.one_apply, one_mul]
  ring

theorem rep_elastic (h : RepM φ₁ t du H) : RepM φ₁ t (dotDR (fun i j => (du i j).addR (1 * (if i = j then 1 else 0))) st.Fpinv) fun x => elastic st (H x) :=
  rep_dotDR (rep_F h) st.Fpinv

theorem det_near (h : RepM φ₁ t du H) (hH : (1 + H t).det ≠ 0) : ∀ᶠ x in 𝓝 t, (1 + H x).det ≠ 0 :=
  (rep_det (rep_F h)).2.continuousAt.eventually_ne hH

/-- The logarithms along the path. -/
theorem logs (h : RepM φ₁ t du H) (hst : C57.Adm st) (hH : (1 + H t).det ≠ 0) : ∃ L : ℝ → M3, ∀ᶠ x in 𝓝 t, (L x)ᵀ = L x ∧ exp (L x) = green st (H x) := by
  have hch : ∀ x, ∃ X : M3, (1 + H x).det ≠ 0 → Xᵀ = X ∧ exp X = green st (H x) := fun x => by
    by_cases hx : (1 + H x).det ≠ 0
    · obtain ⟨X, h1, h2⟩ := positive_log (green_symm st (H x)) (green_positive (elastic_det hst hx))
      exact ⟨X, fun _ => ⟨h1, h2⟩⟩
    · exact ⟨0, fun h' => absurd h' hx⟩
  choose L hL using hch
  exact ⟨L, (det_near h hH).mono fun x hx => hL x hx⟩

variable {L : ℝ → M3} {LD : MatD ℝ}

/-- The equivalent stress of a logarithm. -/
def eqv (P : Params) (L : M3) : ℝ := Real.sqrt (3 / 2) * frob (shear P • deviator L)

theorem rep_p (P : Params) (h : RepM φ₁ t LD L) : Rep φ₁ t (.mulL (bulk P) (trD fun i j => .mulL (1 / 2) (LD i j))) fun x => bulk P * ((L x).trace / 2) := by
  have hE : RepM φ₁ t (fun i j => .mulL (1 / 2) (LD i j)) fun x => (1 / 2 : ℝ) • L x := fun i j => (h i j).mulL _
  refine ((hE.tr).mulL _).congr fun x => ?_
  beta_reduce
  rw [Matrix.trace_smul, smul_eq_mul]
  ring

theorem rep_s (P : Params) (h : RepM φ₁ t LD L) : RepM φ₁ t (fun i j => .mulL (2 * shear P) (devD (fun i j => .mulL (1 / 2) (LD i j)) i j)) fun x => shear P • deviator (L x) := by
  have hE : RepM φ₁ t (fun i j => .mulL (1 / 2) (LD i j)) fun x => (1 / 2 : ℝ) • L x := fun i j => (h i j).mulL _
  intro i j
  refine (((hE.dev) i j).mulL _).congr fun x => ?_
  beta_reduce
  rw [deviator_smul, Matrix.smul_apply, Matrix.smul_apply, smul_eq_mul, smul_eq_mul]
  ring

theorem qval (P : Params) (h : RepM φ₁ t LD L) :
    (Dual.mulL (Real.sqrt (3 / 2)) (normD fun i j => .mulL (2 * shear P) (devD (fun i j => .mulL (1 / 2) (LD i j)) i j)) : Dual ℝ).value = eqv P (L t) := by
  have h1 := (rep_s P h).sqNorm.1
  change Real.sqrt (3 / 2) * Real.sqrt _ = Real.sqrt (3 / 2) * frob _
  rw [h1]
  rfl

theorem rep_q (P : Params) (h : RepM φ₁ t LD L) (h0 : eqv P (L t) ≠ 0) :
    Rep φ₁ t (.mulL (Real.sqrt (3 / 2)) (normD fun i j => .mulL (2 * shear P) (devD (fun i j => .mulL (1 / 2) (LD i j)) i j))) fun x => eqv P (L x) :=
  ((rep_s P h).norm fun h1 => h0 (by rw [eqv, h1, mul_zero])).mulL _

theorem eqv_continuous (P : Params) (h : RepM φ₁ t LD L) : ContinuousAt (fun x => eqv P (L x)) t := by
  have h1 := (rep_s P h).sqNorm.2.continuousAt
  exact continuousAt_const.mul h1.sqrt

theorem eqv_mises (hP : C57.Good P) {X M C : M3} (hX : Xᵀ = X) (hC : exp X = C) (hM : Hencky P C M) : mises M = eqv P X := by
  rw [hencky_unique hM (hencky_of hP hX hC), mises_hencky _ (by rw [Matrix.trace_smul, trace_deviator, smul_zero])]
  rfl

theorem kirchhoff_stress {H Fe s X : M3} (hH : (1 + H).det ≠ 0) : kirchhoff H (stress P H Fe s X) = (Feᵀ)⁻¹ * (s + (bulk P * (X.trace / 2)) • (1 : M3)) * Feᵀ := by
  rw [kirchhoff, stress, smul_smul, mul_inv_cancel₀ hH, one_smul]

theorem nu_ok (hP : C57.Good P) : ¬ (1 - 2 * P.nu = 0 ∨ 1 + P.nu = 0) := by
  rintro (h | h)
  · exact hP.nu' h
  · linarith [hP.nu]

/-- The trial state of `update` is that of the exact logarithm. -/
theorem trial_log {H X L' s : M3} {q : ℝ} (hst : C57.Adm st) (hH : (1 + H).det ≠ 0) (hE : Exact (green st H)) (hX : Xᵀ = X) (hexp : exp X = green st H)
    (h : Trial P st H L' s q) : L' = X ∧ s = shear P • deviator X ∧ q = eqv P X := by
  obtain ⟨B, b1, -, -, b4⟩ := C56_logarithm _ hE (green_positive (elastic_det hst hH))
  have e : L' = X := by
    rw [b4 X hX hexp]
    have := h.log
    rw [b1] at this
    exact (Option.some.inj this).symm
  subst e
  refine ⟨rfl, h.s_eq, ?_⟩
  rw [h.q_eq, h.s_eq]
  rfl

/-! ### Elastic steps -/

/-- **C103, elastic steps.**  If the trial stress is inside the yield surface, the dual numbers returned are the values and derivatives of Hencky's stress along the path, and the state stays;
strictly inside, and where eigenvalues are exact, that is the derivative of the stress the code computes. -/
theorem C103_elastic (hP : C57.Good P) (hst : C57.Adm st) (h : RepM φ₁ t du H) (hH : (1 + H t).det ≠ 0) (hE : Exact (green st (H t))) {M : M3}
    (hM : Hencky P (green st (H t)) M) (hin : mises M - P.Y st.eqps ≤ tol * P.sigmaY) :
    ∃ (σ : MatD ℝ) (S : ℝ → M3), updateD P st du = some (σ, st) ∧ RepM φ₁ t σ S ∧ (∀ᶠ x in 𝓝 t, ElasticStress P st (H x) (S x)) ∧
      (mises M - P.Y st.eqps < tol * P.sigmaY → (∀ᶠ x in 𝓝 t, Exact (green st (H x))) → ∀ᶠ x in 𝓝 t, update P st (H x) = some (S x, st, none)) := by
  obtain ⟨L, hL⟩ := logs (st := st) h hst hH
  have ht := hL.self_of_nhds
  obtain ⟨LD, g1, g2⟩ := rep_log (rep_dotDD (rep_transpose (rep_elastic (st := st) h)) (rep_elastic h)) hE hL
  have hm := eqv_mises hP ht.1 ht.2 hM
  rw [hm] at hin
  obtain ⟨σ, c1, c2⟩ := rep_cauchy (rep_s P g2) (rep_p P g2) (rep_elastic (st := st) h) (rep_F h) (elastic_det hst hH) hH
  refine ⟨σ, fun x => stress P (H x) (elastic st (H x)) (shear P • deviator (L x)) (L x), ?_, c2, ?_, ?_⟩
  · unfold updateD
    rw [if_neg (nu_ok hP)]
    dsimp only
    rw [g1, Option.bind_some]
    unfold finishD
    dsimp only
    rw [qval P g2, if_neg (by rw [FiniteJ2.residual]; simp only [mul_zero, sub_zero, add_zero, gt_iff_lt, not_lt]; exact hin), c1]
    rfl
  · filter_upwards [hL, det_near h hH] with x hx hd
    exact ⟨_, hencky_of hP hx.1 hx.2, kirchhoff_stress hd⟩
  · intro hs hx
    rw [hm] at hs
    have hq : ∀ᶠ x in 𝓝 t, eqv P (L x) - P.Y st.eqps < tol * P.sigmaY := ((eqv_continuous P g2).sub_const _).eventually_lt_const hs
    filter_upwards [hL, det_near h hH, hx, hq] with x hx hd he hq
    obtain ⟨L', s, q, hT, hc⟩ := update_cases hP hst (H x) hd
    obtain ⟨rfl, rfl, rfl⟩ := trial_log hst hd he hx.1 hx.2 hT
    rcases hc with ⟨-, hc⟩ | ⟨r, A, -, hc, -⟩
    · exact hc
    · linarith

/-! ### Plastic steps -/

/-- The flow of a step of size `δ`. -/
def flow (P : Params) (X : M3) (δ : ℝ) : M3 := -(δ * (3 / 2) / eqv P X) • (shear P • deviator X)

/-- The stress of a step of size `δ`. -/
def flowed (P : Params) (st : State) (H X : M3) (δ : ℝ) : M3 :=
  stress P H (elastic st H * exp (flow P X δ)) ((1 - 3 * shear P * δ / eqv P X) • shear P • deviator X) X

/-- The stress of a step is that of the return mapping with that size. -/
theorem return_of (hP : C57.Good P) {H X : M3} {δ : ℝ} {Y : ℝ → ℝ} (hH : (1 + H).det ≠ 0) (hX : Xᵀ = X) (hexp : exp X = green st H) (hq : eqv P X ≠ 0)
    (hδ : 0 ≤ δ) (hy : eqv P X - 3 * shear P * δ = Y (st.eqps + δ)) : Return P Y st H (flowed P st H X δ) := by
  have hM0 := hencky_of hP hX hexp
  have hm := eqv_mises hP hX hexp hM0
  have hdv : deviator (shear P • deviator X + (bulk P * (X.trace / 2)) • (1 : M3)) = shear P • deviator X := by
    rw [deviator_add, deviator_smul, deviator_smul, deviator_of_traceless (trace_deviator X), C32.deviator_one, smul_zero, add_zero]
  refine ⟨_, δ, hM0, hδ, by rw [hm]; exact hy, ?_⟩
  rw [hm, hdv]
  change ElasticStress P ⟨st.Fpinv * exp (flow P X δ), st.eqps + δ⟩ H _
  set N : M3 := flow P X δ with hN
  have hNs : Nᵀ = N := by rw [hN, flow, Matrix.transpose_smul, Matrix.transpose_smul, deviator_symm hX]
  have hAs : (exp N)ᵀ = exp N := by rw [← Matrix.exp_transpose, hNs]
  have hc : Commute X N := by
    rw [hN]
    exact ((Commute.sub_right (Commute.refl X) ((Commute.one_right X).smul_right _)).smul_right _).smul_right _
  have hg := green_after (st := st) rfl hAs hexp hc (st.eqps + δ)
  have hLN : (X + (2 : ℝ) • N)ᵀ = X + (2 : ℝ) • N := by rw [Matrix.transpose_add, Matrix.transpose_smul, hNs, hX]
  refine ⟨_, hencky_of hP hLN hg, ?_⟩
  have htr : (X + (2 : ℝ) • N).trace = X.trace := by
    rw [Matrix.trace_add, hN, flow, Matrix.trace_smul, Matrix.trace_smul, Matrix.trace_smul, trace_deviator, smul_zero, smul_zero, smul_zero, add_zero]
  have hdev : shear P • deviator (X + (2 : ℝ) • N) = (1 - 3 * shear P * δ / eqv P X) • shear P • deviator X := by
    rw [deviator_add, deviator_smul, hN, flow, deviator_smul, deviator_smul, deviator_of_traceless (trace_deviator X)]
    simp only [smul_add, smul_smul, ← add_smul]
    congr 1
    field_simp
    ring
  have hel : elastic ⟨st.Fpinv * exp N, st.eqps + δ⟩ H = elastic st H * exp N := by rw [elastic, elastic, Matrix.mul_assoc]
  rw [htr, hdev, hel, flowed, kirchhoff_stress hH]

theorem exp_det {N : M3} (hN : Nᵀ = N) : (exp N).det ≠ 0 := by
  obtain ⟨Q, x, hQ, rfl⟩ := symm_sp N hN
  rw [sp_exp hQ, det_sp hQ]
  exact (Finset.prod_pos fun k _ => Real.exp_pos _).ne'

/-- The trial equivalent stress with its derivative, as the code computes it. -/
abbrev qD (P : Params) (LD : MatD ℝ) : Dual ℝ :=
  .mulL (Real.sqrt (3 / 2)) (normD fun i j => .mulL (2 * shear P) (devD (fun i j => .mulL (1 / 2) (LD i j)) i j))

/-- If the increment with its derivative is that of `δ`, the stress is that of the steps of sizes `δ`. -/
theorem plastic_rep (hP : C57.Good P) (hst : C57.Adm st) (h : RepM φ₁ t du H) (hH : (1 + H t).det ≠ 0)
    (hL : ∀ᶠ x in 𝓝 t, (L x)ᵀ = L x ∧ exp (L x) = green st (H x))
    (g1 : logSymmD (dotDD (transposeD (dotDR (fun i j => (du i j).addR (1 * (if i = j then 1 else 0))) st.Fpinv)) (dotDR (fun i j => (du i j).addR (1 * (if i = j then 1 else 0))) st.Fpinv)) =
      some LD) (g2 : RepM φ₁ t LD L) (hq : 0 < eqv P (L t)) (hy : tol * P.sigmaY < eqv P (L t) - P.Y st.eqps) {r : ScalarSolver.Result}
    (hsol : ScalarSolver.solve (FiniteJ2.residual P st.eqps (eqv P (L t))) (dresidual P st.eqps) ⟨0, tol * P.sigmaY, 25⟩ 0 0 ((eqv P (L t) - P.Y st.eqps) / (3 * shear P)) = .ok r)
    {δ : ℝ → ℝ} (hδ : Rep φ₁ t (rootDual P st.eqps (qD P LD) r) δ) (hN : Exact (flow P (L t) (δ t))) :
    ∃ σ, updateD P st du = some (σ, ⟨st.Fpinv * exp (flow P (L t) (δ t)), st.eqps + δ t⟩) ∧ RepM φ₁ t σ fun x => flowed P st (H x) (L x) (δ x) := by
  have hG := shear_pos hP
  have ht := hL.self_of_nhds
  have hqr := rep_q P g2 hq.ne'
  have hs := rep_s P g2
  have hNp : ∀ i j, Rep φ₁ t ((Dual.mulL (3 / 2) (Dual.mulL (2 * shear P) (devD (fun i j => .mulL (1 / 2) (LD i j)) i j))).div (qD P LD))
      fun x => 3 / 2 * (shear P • deviator (L x)) i j / eqv P (L x) := fun i j => ((hs i j).mulL _).div hqr hq.ne'
  have hNN : RepM φ₁ t (fun i j => (rootDual P st.eqps (qD P LD) r).neg.mul ((Dual.mulL (3 / 2) (Dual.mulL (2 * shear P) (devD (fun i j => .mulL (1 / 2) (LD i j)) i j))).div (qD P LD)))
      fun x => flow P (L x) (δ x) := fun i j => by
    refine ((rep_neg hδ).mul (hNp i j)).congr fun x => ?_
    beta_reduce
    rw [flow, Matrix.smul_apply (-(δ x * (3 / 2) / eqv P (L x))), smul_eq_mul]
    ring
  obtain ⟨A, a1, a2⟩ := rep_exp hNN hN
  have hs' : RepM φ₁ t (fun i j => (Dual.mulL (2 * shear P) (devD (fun i j => .mulL (1 / 2) (LD i j)) i j)).sub ((Dual.mulL (2 * shear P) (rootDual P st.eqps (qD P LD) r)).mul
      ((Dual.mulL (3 / 2) (Dual.mulL (2 * shear P) (devD (fun i j => .mulL (1 / 2) (LD i j)) i j))).div (qD P LD))))
      fun x => (1 - 3 * shear P * δ x / eqv P (L x)) • shear P • deviator (L x) := fun i j => by
    refine ((hs i j).sub ((hδ.mulL _).mul (hNp i j))).congr fun x => ?_
    beta_reduce
    rw [Matrix.smul_apply (1 - 3 * shear P * δ x / eqv P (L x)), smul_eq_mul]
    ring
  have hNs : (flow P (L t) (δ t))ᵀ = flow P (L t) (δ t) := by rw [flow, Matrix.transpose_smul, Matrix.transpose_smul, deviator_symm ht.1]
  obtain ⟨σ, c1, c2⟩ := rep_cauchy hs' (rep_p P g2) (rep_dotDD (rep_elastic (st := st) h) a2) (rep_F h)
    (by rw [Matrix.det_mul]; exact mul_ne_zero (elastic_det hst hH) (exp_det hNs)) hH
  refine ⟨σ, ?_, c2⟩
  unfold updateD
  rw [if_neg (nu_ok hP)]
  dsimp only
  rw [g1, Option.bind_some]
  unfold finishD
  dsimp only
  rw [qval P g2, if_pos (by rw [FiniteJ2.residual]; simp only [mul_zero, sub_zero, add_zero, gt_iff_lt]; exact hy), if_neg (by
    rintro (h0 | h0)
    · linarith
    · exact hq.ne' h0), hsol]
  dsimp only
  rw [a1, Option.bind_some, c1, Option.map_some, val_of a2, dot_eq, hδ.1]

theorem increment_unique {c a d d' q : ℝ} (hc : 0 < c) {Y : ℝ → ℝ} (hm : ∀ a b, 0 ≤ a → a ≤ b → Y a ≤ Y b) (ha : 0 ≤ a) (h0 : 0 ≤ d) (h0' : 0 ≤ d') (h : q - c * d = Y (a + d))
    (h' : q - c * d' = Y (a + d')) : d = d' := by
  rcases lt_trichotomy d d' with hl | hl | hl
  · have := hm (a + d) (a + d') (by linarith) (by linarith)
    nlinarith
  · exact hl
  · have := hm (a + d') (a + d) (by linarith) (by linarith)
    nlinarith

theorem exists_increment {c a q : ℝ} (hc : 0 < c) {Y : ℝ → ℝ} (hm : ∀ a b, 0 ≤ a → a ≤ b → Y a ≤ Y b) (hY : ContinuousOn Y (Set.Ici 0)) (ha : 0 ≤ a) (hout : Y a ≤ q) :
    ∃ d, 0 ≤ d ∧ q - c * d = Y (a + d) := by
  have hu : 0 ≤ (q - Y a) / c := div_nonneg (by linarith) hc.le
  have hcont : ContinuousOn (fun d => q - c * d - Y (a + d)) (Set.Icc 0 ((q - Y a) / c)) := by
    refine ContinuousOn.sub (by fun_prop) (hY.comp (by fun_prop) ?_)
    intro d hd
    exact add_nonneg ha hd.1
  have := intermediate_value_Icc' hu hcont
  obtain ⟨d, hd, e⟩ := this (show (0 : ℝ) ∈ Set.Icc _ _ by
    constructor
    · have := hm a (a + (q - Y a) / c) ha (by linarith)
      rw [mul_div_cancel₀ _ hc.ne']
      linarith
    · simp only [mul_zero, sub_zero, add_zero]
      linarith)
  exact ⟨d, hd.1, by linarith⟩

/-- The facts about a plastic step. -/
theorem plastic_facts (hP : C57.Good P) (hst : C57.Adm st) {K X σ₀ : M3} {st' : State} {r : ScalarSolver.Result} (hH : (1 + K).det ≠ 0) (hE : ExactStep st K)
    (hX : Xᵀ = X) (hexp : exp X = green st K) (hu : update P st K = some (σ₀, st', some r)) :
    0 < eqv P X ∧ tol * P.sigmaY < eqv P X - P.Y st.eqps ∧ 0 ≤ r.x ∧ r.residual = eqv P X - 3 * shear P * r.x - P.Y (st.eqps + r.x) ∧
      r.dfdx = -(3 * shear P) - P.dY (st.eqps + r.x) ∧ (r.converged = true → |r.residual| < tol * P.sigmaY) ∧ Exact (flow P X r.x) ∧
      ScalarSolver.solve (FiniteJ2.residual P st.eqps (eqv P X)) (dresidual P st.eqps) ⟨0, tol * P.sigmaY, 25⟩ 0 0 ((eqv P X - P.Y st.eqps) / (3 * shear P)) = .ok r ∧
      σ₀ = flowed P st K X r.x ∧ st' = ⟨st.Fpinv * exp (flow P X r.x), st.eqps + r.x⟩ := by
  obtain ⟨L', s, q, hT, hc⟩ := update_cases hP hst K hH
  have hlog := hT.log
  obtain ⟨rfl, rfl, rfl⟩ := trial_log hst hH hE.green hX hexp hT
  rcases hc with ⟨-, hc⟩ | ⟨r', A, h1, h2, h3, h4, h5, h6, h7, h8, h9⟩
  · rw [hc] at hu; cases hu
  rw [h9] at hu
  cases hu
  have hres := C15.C15_result_partial 0 0 _ r h5
  have hfl : Exact (flow P L' r.x) := by
    have := hE.flow L' hlog (-(r.x * (3 / 2) / eqv P L') * shear P) (by
      have : 0 ≤ r.x * (3 / 2) / eqv P L' := by positivity
      nlinarith [shear_pos hP])
    rw [flow, smul_smul]
    exact this
  have hA : A = exp (flow P L' r.x) := Option.some.inj (h6.symm.trans (C56_exponential _ hfl))
  refine ⟨h1, h2, h3, hres.2.2.1, hres.2.2.2.1, fun hc => ?_, hfl, h5, by rw [hA]; rfl, by rw [hA]⟩
  have htol : 0 < tol * P.sigmaY := mul_pos (by norm_num [tol]) hP.sigmaY
  rcases hres.2.2.2.2.2 hc with h0 | h0 | ⟨s, -, -, h0⟩
  · rw [hres.2.2.1, h0, abs_zero]
    exact htol
  · rw [hres.2.2.1]
    exact h0
  · exact absurd h0 (not_lt.2 (abs_nonneg _))

/-- The derivative `solve_scalar_equation` attaches to the increment. -/
theorem rep_root (hP : C57.Good P) (hst : C57.Adm st) (g2 : RepM φ₁ t LD L) (hq : eqv P (L t) ≠ 0) {r : ScalarSolver.Result} (hx : 0 ≤ r.x)
    (hr : r.dfdx = -(3 * shear P) - P.dY (st.eqps + r.x)) (hY : ∀ a, 0 ≤ a → HasDerivAt P.Y (P.dY a) a) {δ : ℝ → ℝ} {ρ : ℝ} (hδ0 : δ t = r.x)
    (hδ : ∀ᶠ x in 𝓝 t, 0 ≤ δ x ∧ eqv P (L x) - 3 * shear P * δ x = P.Y (st.eqps + δ x) + ρ) : Rep φ₁ t (rootDual P st.eqps (qD P LD) r) δ := by
  have hc : 0 < 3 * shear P := by linarith [shear_pos hP]
  have hqr := rep_q P g2 hq
  have ha : 0 ≤ st.eqps + r.x := by linarith [hst.eqps]
  refine ⟨hδ0.symm, ?_⟩
  have := implicit (c := 3 * shear P) (a := st.eqps) hc hst.eqps (Y := fun a => P.Y a + ρ) (dY := P.dY) (δ := δ)
    (fun b b' hb hbb => by linarith [hP.mono b b' hb hbb]) (by rw [hδ0]; exact (hY _ ha).add_const ρ) (by rw [hδ0]; exact hP.deriv _ ha) hqr.2 hδ
  simp only [rootDual, map_smul, map_neg, Dual.subR]
  rw [hr]
  rw [hδ0] at this
  have e : (-(3 * shear P) - P.dY (st.eqps + r.x))⁻¹ • -φ₁ (qD P LD).gradient = (3 * shear P + P.dY (st.eqps + r.x))⁻¹ • φ₁ (qD P LD).gradient := by
    rw [smul_neg, ← neg_smul, ← inv_neg]
    congr 2
    ring
  rw [e]
  exact this

/-- **C103, plastic steps.**  For every material with a differentiable flow stress: if the scalar solve converges, leaving the residual `ρ` (smaller than the tolerance), then the dual
numbers returned are, exactly, the stress and its derivative of the exact return mapping of the material whose flow stress is raised by the constant `ρ`. -/
theorem C103_tangent_partial (hP : C57.Good P) (hst : C57.Adm st) (hY : ∀ a, 0 ≤ a → HasDerivAt P.Y (P.dY a) a) (h : RepM φ₁ t du H) (hH : (1 + H t).det ≠ 0)
    (hE : ExactStep st (H t)) {σ₀ : M3} {st' : State} {r : ScalarSolver.Result} (hu : update P st (H t) = some (σ₀, st', some r)) (hc : r.converged = true) :
    |r.residual| < tol * P.sigmaY ∧ ∃ (σ : MatD ℝ) (S : ℝ → M3), updateD P st du = some (σ, st') ∧ S t = σ₀ ∧ RepM φ₁ t σ S ∧
      ∀ᶠ x in 𝓝 t, Return P (fun a => P.Y a + r.residual) st (H x) (S x) := by
  obtain ⟨L, hL⟩ := logs (st := st) h hst hH
  have ht := hL.self_of_nhds
  obtain ⟨LD, g1, g2⟩ := rep_log (rep_dotDD (rep_transpose (rep_elastic (st := st) h)) (rep_elastic h)) hE.green hL
  obtain ⟨h1, h2, h3, h5, h6, h7, h8, h9, h10, h11⟩ := plastic_facts hP hst hH hE ht.1 ht.2 hu
  have hρ := h7 hc
  refine ⟨hρ, ?_⟩
  have hcp : 0 < 3 * shear P := by linarith [shear_pos hP]
  -- the increment is positive
  have hx : 0 < r.x := by
    rcases h3.lt_or_eq with hx | hx
    · exact hx
    · rw [← hx, mul_zero, sub_zero, add_zero] at h5
      rw [← h5] at h2
      exact absurd (abs_lt.1 hρ).2 (not_lt.2 h2.le)
  have hcont := eqv_continuous P g2
  have hnear : ∀ᶠ x in 𝓝 t, P.Y st.eqps + r.residual < eqv P (L x) := by
    refine hcont.eventually_const_lt ?_
    have := hP.mono st.eqps (st.eqps + r.x) hst.eqps (by linarith)
    have : 0 < 3 * shear P * r.x := mul_pos hcp hx
    rw [h5]
    linarith
  have hex : ∀ x, ∃ δ, P.Y st.eqps + r.residual < eqv P (L x) → 0 ≤ δ ∧ eqv P (L x) - 3 * shear P * δ = P.Y (st.eqps + δ) + r.residual := by
    intro x
    by_cases hx' : P.Y st.eqps + r.residual < eqv P (L x)
    · obtain ⟨δ, d1, d2⟩ := exists_increment hcp (Y := fun a => P.Y a + r.residual) (fun a b ha hab => by linarith [hP.mono a b ha hab])
        (fun a ha => ((hY a ha).continuousAt.add_const _).continuousWithinAt) hst.eqps hx'.le
      exact ⟨δ, fun _ => ⟨d1, d2⟩⟩
    · exact ⟨0, fun h => absurd h hx'⟩
  choose δ hδ using hex
  have hδ' : ∀ᶠ x in 𝓝 t, 0 ≤ δ x ∧ eqv P (L x) - 3 * shear P * δ x = P.Y (st.eqps + δ x) + r.residual := by
    filter_upwards [hnear] with x hx' using hδ x hx'
  have hδ0 : δ t = r.x := by
    obtain ⟨d1, d2⟩ := hδ'.self_of_nhds
    exact increment_unique hcp (Y := fun a => P.Y a + r.residual) (fun a b ha hab => by linarith [hP.mono a b ha hab]) hst.eqps d1 h3 d2 (by linarith)
  obtain ⟨σ, s1, s2⟩ := plastic_rep hP hst h hH hL g1 g2 h1 h2 h9 (rep_root hP hst g2 h1.ne' h3 h6 hY hδ0 hδ') (by rw [hδ0]; exact h8)
  refine ⟨σ, _, by rw [s1, hδ0, h11], by rw [hδ0, h10], s2, ?_⟩
  filter_upwards [hδ', hL, det_near h hH, hcont.eventually_ne h1.ne'] with x d hx hd hq
  exact return_of hP hd hx.1 hx.2 hq d.1 d.2

/-! ### Linear hardening -/

/-- Outside the yield surface the update is a step of the size the solver returns. -/
theorem plastic_update (hP : C57.Good P) (hst : C57.Adm st) {K X : M3} (hH : (1 + K).det ≠ 0) (hE : ExactStep st K) (hX : Xᵀ = X) (hexp : exp X = green st K)
    (hout : tol * P.sigmaY < eqv P X - P.Y st.eqps) :
    ∃ st' r, update P st K = some (flowed P st K X r.x, st', some r) ∧
      ScalarSolver.solve (FiniteJ2.residual P st.eqps (eqv P X)) (dresidual P st.eqps) ⟨0, tol * P.sigmaY, 25⟩ 0 0 ((eqv P X - P.Y st.eqps) / (3 * shear P)) = .ok r := by
  obtain ⟨L', s, q, hT, hc⟩ := update_cases hP hst K hH
  rcases hc with ⟨h0, hc⟩ | ⟨r', A, h1, h2, h3, h4, h5, h6, h7, h8, h9⟩
  · obtain ⟨rfl, rfl, rfl⟩ := trial_log hst hH hE.green hX hexp hT
    linarith
  · obtain ⟨-, -, -, -, -, -, -, g8, g9, -⟩ := plastic_facts hP hst hH hE hX hexp h9
    exact ⟨_, r', by rw [h9, ← g9], g8⟩

/-- The solver for linear hardening. -/
theorem linear_solve (hP : C57.Good P) {Hi : ℝ} (hHi : 0 ≤ Hi) (hY : P.Y = J2.linearHardening P.sigmaY Hi) (hdY : P.dY = fun _ => Hi) {q a : ℝ}
    (hout : tol * P.sigmaY < q - P.Y a) {r : ScalarSolver.Result}
    (h : ScalarSolver.solve (FiniteJ2.residual P a q) (dresidual P a) ⟨0, tol * P.sigmaY, 25⟩ 0 0 ((q - P.Y a) / (3 * shear P)) = .ok r) :
    r.converged = true ∧ r.x = if 0 < Hi ∧ Hi < 3 * shear P ∧ (3 * shear P - Hi) * (q - P.Y a) < 2 * (3 * shear P) * (tol * P.sigmaY)
      then (q - P.Y a) / (2 * (3 * shear P)) else (q - P.Y a) / (3 * shear P + Hi) := by
  have hG := shear_pos hP
  have hc : 0 < 3 * shear P := by linarith
  have htol : 0 < tol * P.sigmaY := mul_pos (by norm_num [tol]) hP.sigmaY
  obtain ⟨r2, g1, g2, g3⟩ := C60.solve_linear_value (q - P.Y a) (3 * shear P) Hi (tol * P.sigmaY) (by linarith) hc hHi htol
  have e1 : FiniteJ2.residual P a q = fun d => (q - P.Y a) - (3 * shear P + Hi) * d := by
    funext d
    rw [FiniteJ2.residual, hY, J2.linearHardening, J2.linearHardening]
    ring
  have e2 : dresidual P a = fun _ => -(3 * shear P + Hi) := by
    funext d
    rw [dresidual, hdY]
    ring
  rw [e1, e2, g1] at h
  cases h
  refine ⟨g2, ?_⟩
  rw [g3]
  have e : (3 * shear P - Hi) * ((q - P.Y a) / (3 * shear P)) / 2 < tol * P.sigmaY ↔ (3 * shear P - Hi) * (q - P.Y a) < 2 * (3 * shear P) * (tol * P.sigmaY) := by
    have : (3 * shear P - Hi) * ((q - P.Y a) / (3 * shear P)) / 2 = ((3 * shear P - Hi) * (q - P.Y a)) / (2 * (3 * shear P)) := by
      field_simp
    rw [this, div_lt_iff₀ (by linarith), mul_comm (tol * P.sigmaY)]
  simp only [e]

theorem linear_deriv {Hi : ℝ} (hY : P.Y = J2.linearHardening P.sigmaY Hi) (hdY : P.dY = fun _ => Hi) (a : ℝ) : HasDerivAt P.Y (P.dY a) a := by
  rw [hY, hdY]
  have : HasDerivAt (fun a : ℝ => P.sigmaY + Hi * a) (0 + Hi * 1) a := (hasDerivAt_const _ _).add ((hasDerivAt_id a).const_mul Hi)
  rw [zero_add, mul_one] at this
  exact this

/-- **C103, linear hardening.**  Outside a band next to the yield surface (`C103_band_wrong`), and everywhere if there is no hardening or it exceeds `3G`, the derivative returned is
the derivative of the stress the code computes. -/
theorem C103_linear_partial (hP : C57.Good P) {Hi : ℝ} (hHi : 0 ≤ Hi) (hY : P.Y = J2.linearHardening P.sigmaY Hi) (hdY : P.dY = fun _ => Hi) (hst : C57.Adm st)
    (h : RepM φ₁ t du H) (hH : (1 + H t).det ≠ 0) (hE : ∀ᶠ x in 𝓝 t, ExactStep st (H x)) {M : M3} (hM : Hencky P (green st (H t)) M)
    (hout : tol * P.sigmaY < mises M - P.Y st.eqps)
    (hband : Hi = 0 ∨ 3 * shear P ≤ Hi ∨ 2 * (3 * shear P) * (tol * P.sigmaY) < (3 * shear P - Hi) * (mises M - P.Y st.eqps)) :
    ∃ (σ : MatD ℝ) (st' : State) (S : ℝ → M3), updateD P st du = some (σ, st') ∧ RepM φ₁ t σ S ∧ ∀ᶠ x in 𝓝 t, ∃ s r, update P st (H x) = some (S x, s, some r) := by
  obtain ⟨L, hL⟩ := logs (st := st) h hst hH
  have ht := hL.self_of_nhds
  have hEt := hE.self_of_nhds
  obtain ⟨LD, g1, g2⟩ := rep_log (rep_dotDD (rep_transpose (rep_elastic (st := st) h)) (rep_elastic h)) hEt.green hL
  rw [eqv_mises hP ht.1 ht.2 hM] at hout hband
  have hc : 0 < 3 * shear P := by linarith [shear_pos hP]
  have hcH : 0 < 3 * shear P + Hi := by linarith
  have htol : 0 < tol * P.sigmaY := mul_pos (by norm_num [tol]) hP.sigmaY
  have hcont := eqv_continuous P g2
  have hout' : ∀ᶠ x in 𝓝 t, tol * P.sigmaY < eqv P (L x) - P.Y st.eqps := (hcont.sub_const _).eventually_const_lt hout
  have hband' : ∀ᶠ x in 𝓝 t, Hi = 0 ∨ 3 * shear P ≤ Hi ∨ 2 * (3 * shear P) * (tol * P.sigmaY) < (3 * shear P - Hi) * (eqv P (L x) - P.Y st.eqps) := by
    rcases hband with hb | hb | hb
    · exact Filter.Eventually.of_forall fun _ => Or.inl hb
    · exact Filter.Eventually.of_forall fun _ => Or.inr (Or.inl hb)
    · have := (continuousAt_const (y := 3 * shear P - Hi)).mul (hcont.sub_const (P.Y st.eqps)) |>.eventually_const_lt hb
      filter_upwards [this] with x hx
      exact Or.inr (Or.inr hx)
  set δ : ℝ → ℝ := fun x => (eqv P (L x) - P.Y st.eqps) / (3 * shear P + Hi) with hδ
  have hstep : ∀ᶠ x in 𝓝 t, ∃ s r, update P st (H x) = some (flowed P st (H x) (L x) (δ x), s, some r) ∧ r.x = δ x := by
    filter_upwards [hL, det_near h hH, hE, hout', hband'] with x hx hd he ho hb
    obtain ⟨s, r, u1, u2⟩ := plastic_update hP hst hd he hx.1 hx.2 ho
    have g3 := (linear_solve hP hHi hY hdY ho u2).2
    rw [if_neg (by
      rintro ⟨b1, b2, b3⟩
      rcases hb with hb | hb | hb
      · exact b1.ne' hb
      · linarith
      · linarith)] at g3
    exact ⟨s, r, by rw [u1, g3], g3⟩
  obtain ⟨st', r, hu, hr⟩ := hstep.self_of_nhds
  obtain ⟨h1, h2, h3, h5, h6, h7, h8, h9, h10, h11⟩ := plastic_facts hP hst hH hEt ht.1 ht.2 hu
  obtain ⟨σ, s1, s2⟩ := plastic_rep hP hst h hH hL g1 g2 h1 h2 h9 (rep_root hP hst g2 h1.ne' h3 h6 (fun a _ => linear_deriv hY hdY a) hr.symm (ρ := 0) (by
    filter_upwards [hout'] with x hx
    refine ⟨div_nonneg (by linarith) hcH.le, ?_⟩
    have e : (3 * shear P + Hi) * δ x = eqv P (L x) - P.Y st.eqps := mul_div_cancel₀ _ hcH.ne'
    have e2 : P.Y (st.eqps + δ x) = P.Y st.eqps + Hi * δ x := by
      rw [hY, J2.linearHardening, J2.linearHardening]
      ring
    rw [e2]
    linarith)) (by rw [← hr]; exact h8)
  exact ⟨σ, _, _, s1, s2, hstep.mono fun x ⟨s, r, e, _⟩ => ⟨s, r, e⟩⟩

/-- Two thirds of the squared equivalent stress, for a tensor similar to a symmetric one. -/
def second (τ : M3) : ℝ := (τ * τ).trace - τ.trace ^ 2 / 3

theorem frob_smul_sq (c : ℝ) (A : M3) : frob (c • A) ^ 2 = c ^ 2 * frob A ^ 2 := by
  have h : ∀ B : M3, frob B ^ 2 = ∑ i, ∑ j, B i j ^ 2 := fun B =>
    Real.sq_sqrt (Finset.sum_nonneg fun i _ => Finset.sum_nonneg fun j _ => sq_nonneg (B i j))
  rw [h, h]
  simp only [Matrix.smul_apply, smul_eq_mul, mul_pow, Finset.mul_sum]

theorem second_flowed {K X : M3} {δ : ℝ} (hst : C57.Adm st) (hH : (1 + K).det ≠ 0) (hX : Xᵀ = X) (hq : eqv P X ≠ 0) :
    second (kirchhoff K (flowed P st K X δ)) = 2 / 3 * (eqv P X - 3 * shear P * δ) ^ 2 := by
  have hNs : (flow P X δ)ᵀ = flow P X δ := by rw [flow, Matrix.transpose_smul, Matrix.transpose_smul, deviator_symm hX]
  have hd : IsUnit ((elastic st K * exp (flow P X δ))ᵀ).det := by
    rw [Matrix.det_transpose, Matrix.det_mul]
    exact (mul_ne_zero (elastic_det hst hH) (exp_det hNs)).isUnit
  rw [flowed, kirchhoff_stress hH]
  generalize (elastic st K * exp (flow P X δ))ᵀ = B at hd ⊢
  set c := 1 - 3 * shear P * δ / eqv P X with hc
  set M : M3 := c • shear P • deviator X + (bulk P * (X.trace / 2)) • (1 : M3) with hM
  have hMs : Mᵀ = M := by
    rw [hM, Matrix.transpose_add, Matrix.transpose_smul, Matrix.transpose_smul, Matrix.transpose_smul, deviator_symm hX, Matrix.transpose_one]
  have hdv : deviator M = c • shear P • deviator X := by
    rw [hM, deviator_add, deviator_smul, deviator_smul, deviator_smul, deviator_of_traceless (trace_deviator X), C32.deviator_one, smul_zero, add_zero]
  have e1 : (B⁻¹ * M * B).trace = M.trace := by
    rw [Matrix.trace_mul_comm, ← Matrix.mul_assoc, Matrix.mul_nonsing_inv _ hd, Matrix.one_mul]
  have e2 : (B⁻¹ * M * B * (B⁻¹ * M * B)).trace = (M * M).trace := by
    have : B⁻¹ * M * B * (B⁻¹ * M * B) = B⁻¹ * (M * (B * B⁻¹) * M * B) := by simp only [Matrix.mul_assoc]
    rw [this, Matrix.mul_nonsing_inv _ hd, Matrix.mul_one, Matrix.trace_mul_comm, Matrix.mul_assoc (M * M), Matrix.mul_nonsing_inv _ hd, Matrix.mul_one]
  rw [second, e1, e2, ← frob_deviator M hMs, hdv, frob_smul_sq]
  have hs : eqv P X ^ 2 = 3 / 2 * frob (shear P • deviator X) ^ 2 := by rw [eqv, mul_pow, Real.sq_sqrt (by norm_num)]
  have e3 : eqv P X - 3 * shear P * δ = c * eqv P X := by
    rw [hc]
    field_simp
  rw [e3, mul_pow, hs]
  ring

/-- The same with derivatives. -/
theorem rep_second (σ : MatD ℝ) (h : RepM φ₁ t du H) : ∃ g, ∀ S' : ℝ → M3, RepM φ₁ t σ S' → HasDerivAt (fun x => second (kirchhoff (H x) (S' x))) g t := by
  set κ : MatD ℝ := fun i j => (detDual fun i j => (du i j).addR (1 * (if i = j then 1 else 0))).mul (σ i j)
  refine ⟨((trD (dotDD κ κ)).sub (((trD κ).mul (trD κ)).divR 3)).gradient, fun S' hS => ?_⟩
  have hk : RepM φ₁ t κ fun x => kirchhoff (H x) (S' x) := fun i j => (rep_det (rep_F h)).mul (hS i j)
  have := ((rep_dotDD hk hk).tr.sub ((hk.tr.mul hk.tr).divR 3))
  refine (rep_iff.1 (this.congr fun x => ?_)).2
  rw [second, sq]

/-- **C103, violated next to the yield surface.**  In a band above the surface the solver returns its first bisection point; the derivative returned is then that of the stress
computed only if the trial equivalent stress is stationary. -/
theorem C103_band_wrong (hP : C57.Good P) {Hi : ℝ} (hHi : 0 < Hi) (hHc : Hi < 3 * shear P) (hY : P.Y = J2.linearHardening P.sigmaY Hi) (hdY : P.dY = fun _ => Hi)
    (hst : C57.Adm st) (h : RepM φ₁ t du H) (hH : (1 + H t).det ≠ 0) (hE : ∀ᶠ x in 𝓝 t, ExactStep st (H x)) {M : ℝ → M3}
    (hM : ∀ᶠ x in 𝓝 t, Hencky P (green st (H x)) (M x)) (hout : tol * P.sigmaY < mises (M t) - P.Y st.eqps)
    (hband : (3 * shear P - Hi) * (mises (M t) - P.Y st.eqps) < 2 * (3 * shear P) * (tol * P.sigmaY)) :
    ∃ (σ : MatD ℝ) (st' : State) (S : ℝ → M3), updateD P st du = some (σ, st') ∧ (∀ᶠ x in 𝓝 t, ∃ s r, update P st (H x) = some (S x, s, some r)) ∧
      (RepM φ₁ t σ S ↔ HasDerivAt (fun x => mises (M x)) 0 t) := by
  obtain ⟨L, hL⟩ := logs (st := st) h hst hH
  have ht := hL.self_of_nhds
  have hEt := hE.self_of_nhds
  obtain ⟨LD, g1, g2⟩ := rep_log (rep_dotDD (rep_transpose (rep_elastic (st := st) h)) (rep_elastic h)) hEt.green hL
  have hm : (fun x => mises (M x)) =ᶠ[𝓝 t] fun x => eqv P (L x) := by
    filter_upwards [hM, hL] with x h1 h2
    exact eqv_mises hP h2.1 h2.2 h1
  have hmt : mises (M t) = eqv P (L t) := hm.self_of_nhds
  rw [hmt] at hout hband
  have hc : 0 < 3 * shear P := by linarith [shear_pos hP]
  have htol : 0 < tol * P.sigmaY := mul_pos (by norm_num [tol]) hP.sigmaY
  have hcont := eqv_continuous P g2
  have hout' : ∀ᶠ x in 𝓝 t, tol * P.sigmaY < eqv P (L x) - P.Y st.eqps := (hcont.sub_const _).eventually_const_lt hout
  have hband' : ∀ᶠ x in 𝓝 t, (3 * shear P - Hi) * (eqv P (L x) - P.Y st.eqps) < 2 * (3 * shear P) * (tol * P.sigmaY) :=
    ((continuousAt_const (y := 3 * shear P - Hi)).mul (hcont.sub_const (P.Y st.eqps))).eventually_lt_const hband
  set δ : ℝ → ℝ := fun x => (eqv P (L x) - P.Y st.eqps) / (2 * (3 * shear P)) with hδ
  have hstep : ∀ᶠ x in 𝓝 t, ∃ s r, update P st (H x) = some (flowed P st (H x) (L x) (δ x), s, some r) ∧ r.x = δ x := by
    filter_upwards [hL, det_near h hH, hE, hout', hband'] with x hx hd he ho hb
    obtain ⟨s, r, u1, u2⟩ := plastic_update hP hst hd he hx.1 hx.2 ho
    have g3 := (linear_solve hP hHi.le hY hdY ho u2).2
    rw [if_pos ⟨hHi, hHc, hb⟩] at g3
    exact ⟨s, r, by rw [u1, g3], g3⟩
  obtain ⟨st', r, hu, hr⟩ := hstep.self_of_nhds
  obtain ⟨h1, h2, h3, h5, h6, h7, h8, h9, h10, h11⟩ := plastic_facts hP hst hH hEt ht.1 ht.2 hu
  -- the derivative attached to the increment is that of `r.x + (q - q₀) / (3G + Hi)`
  obtain ⟨hq1, hq2⟩ := rep_iff.1 (rep_q P g2 h1.ne')
  set qg : ℝ := (qD P LD).gradient with hqg
  have hcH : 0 < 3 * shear P + Hi := by linarith
  have hroot : (rootDual P st.eqps (qD P LD) r).gradient = qg / (3 * shear P + Hi) := by
    simp only [rootDual, Dual.subR, smul_eq_mul]
    rw [h6, hdY, show (-(3 * shear P) - Hi) = -(3 * shear P + Hi) by ring, inv_neg, neg_mul_neg, inv_mul_eq_div]
  set δe : ℝ → ℝ := fun x => δ t + (eqv P (L x) - eqv P (L t)) / (3 * shear P + Hi) with hδe
  have hδed : HasDerivAt δe (qg / (3 * shear P + Hi)) t := ((hq2.sub_const _).div_const _).const_add _
  have hδet : δe t = δ t := by simp [hδe]
  have hδd : HasDerivAt δ (qg / (2 * (3 * shear P))) t := (hq2.sub_const _).div_const _
  obtain ⟨σ, s1, s2⟩ := plastic_rep hP hst h hH hL g1 g2 h1 h2 h9 (δ := δe) (rep_iff.2 ⟨by rw [hδet]; exact hr, by rw [hroot]; exact hδed⟩) (by rw [hδet, ← hr]; exact h8)
  refine ⟨σ, _, _, s1, hstep.mono fun x ⟨s, r, e, _⟩ => ⟨s, r, e⟩, ?_⟩
  rw [show HasDerivAt (fun x => mises (M x)) 0 t ↔ HasDerivAt (fun x => eqv P (L x)) 0 t from hm.hasDerivAt_iff]
  have hzero : HasDerivAt (fun x => eqv P (L x)) 0 t ↔ qg = 0 := ⟨fun h0 => hq2.unique h0, fun h0 => by rw [h0] at hq2; exact hq2⟩
  rw [hzero]
  constructor
  · intro hS
    obtain ⟨g, hg⟩ := rep_second σ h
    have key : ∀ (d : ℝ → ℝ) (d' : ℝ), d t = δ t → HasDerivAt d d' t → RepM φ₁ t σ (fun x => flowed P st (H x) (L x) (d x)) →
        g = 4 / 3 * (eqv P (L t) - 3 * shear P * δ t) * (qg - 3 * shear P * d') := by
      intro d d' hdt hd hR
      have e : (fun x => second (kirchhoff (H x) (flowed P st (H x) (L x) (d x)))) =ᶠ[𝓝 t] fun x => 2 / 3 * (eqv P (L x) - 3 * shear P * d x) ^ 2 := by
        filter_upwards [hL, det_near h hH, hcont.eventually_ne h1.ne'] with x hx hdx hqx
        exact second_flowed hst hdx hx.1 hqx
      have hA := (e.hasDerivAt_iff).1 (hg _ hR)
      have hB := (((hq2.sub (hd.const_mul (3 * shear P))).pow 2).const_mul (2 / 3))
      have := hA.unique hB
      rw [this, ← hdt]
      simp only [Pi.sub_apply]
      norm_num
      ring
    have k1 := key δ _ rfl hδd hS
    have k2 := key δe _ hδet hδed s2
    have hpos : 0 < eqv P (L t) - 3 * shear P * δ t := by
      have e : 3 * shear P * δ t = (eqv P (L t) - P.Y st.eqps) / 2 := by
        have hG := (shear_pos hP).ne'
        change 3 * shear P * ((eqv P (L t) - P.Y st.eqps) / (2 * (3 * shear P))) = _
        generalize eqv P (L t) - P.Y st.eqps = z
        field_simp
      rw [e]
      have := hP.nonneg st.eqps hst.eqps
      linarith
    rw [k1] at k2
    have k3 := mul_left_cancel₀ (by positivity : (4 / 3 * (eqv P (L t) - 3 * shear P * δ t)) ≠ 0) k2
    have k4 : qg * (3 * shear P - Hi) = 0 := by
      have hG := (shear_pos hP).ne'
      have e1 : 3 * shear P * (qg / (2 * (3 * shear P))) = qg / 2 := by field_simp
      have e2 : 3 * shear P * (qg / (3 * shear P + Hi)) * (3 * shear P + Hi) = 3 * shear P * qg := by field_simp
      rw [e1] at k3
      have k5 : 3 * shear P * (qg / (3 * shear P + Hi)) = qg / 2 := by linarith
      rw [k5] at e2
      linarith
    rcases mul_eq_zero.1 k4 with k | k
    · exact k
    · linarith
  · intro h0
    have := plastic_rep hP hst h hH hL g1 g2 h1 h2 h9 (δ := δ) (rep_iff.2 ⟨hr, by rw [hroot, h0, zero_div]; rw [h0, zero_div] at hδd; exact hδd⟩) (by rw [← hr]; exact h8)
    obtain ⟨σ', s1', s2'⟩ := this
    rw [s1] at s1'
    have : σ = σ' := congrArg Prod.fst (Option.some.inj s1')
    rw [this]
    exact s2'

end path

/-! ## Non-vacuity: a bar stretched by the factor `e^x` -/

/-- Displacement gradient of the bar. -/
def bar (x : ℝ) : M3 := axial (Real.exp x - 1) 0

/-- The same with the derivative along `x`. -/
def barD (t : ℝ) : MatD ℝ := fun i j => ⟨bar t i j, axial (Real.exp t) 0 i j⟩

/-- Its trial stress. -/
def barM (x : ℝ) : M3 := (steel.E / (1 + steel.nu)) • deviator (axial x 0) + (steel.E / (3 * (1 - 2 * steel.nu)) * (axial x 0).trace) • (1 : M3)

theorem bar_F (x : ℝ) : 1 + bar x = axial (Real.exp x) 1 := by
  rw [bar, axial, axial, ← Matrix.diagonal_one, Matrix.diagonal_add]
  congr 1
  funext i
  fin_cases i <;> simp

theorem bar_det (x : ℝ) : (1 + bar x).det ≠ 0 := by
  rw [bar_F, axial, Matrix.det_diagonal, Fin.prod_univ_three]; simp

theorem bar_green (x : ℝ) : green State.initial (bar x) = axial (Real.exp (2 * x)) 1 := by
  rw [green, elastic, bar_F, State.initial]
  simp only [identity_eq]
  rw [Matrix.mul_one, show ∀ x y, (axial x y)ᵀ = axial x y from fun _ _ => Matrix.diagonal_transpose _, axial_mul, ← Real.exp_add, one_mul, two_mul]

theorem bar_exact (x : ℝ) : ExactStep State.initial (bar x) := axial_step (Real.exp_pos _) one_pos (bar_green x)

theorem bar_hencky (x : ℝ) : Hencky steel (green State.initial (bar x)) (barM x) :=
  ⟨axial x 0, Matrix.diagonal_transpose _, by rw [axial_smul, axial_exp, bar_green, mul_zero, Real.exp_zero], rfl⟩

theorem bar_mises {x : ℝ} (hx : 0 ≤ x) : mises (barM x) = x := by
  have e : barM x = axial (2 / 3 * x) (-(1 / 3) * x) + (x / 3) • (1 : M3) := by
    have ht : (axial x 0).trace = x := by
      rw [axial, Matrix.trace_diagonal, Fin.sum_univ_three]
      simp
    rw [barM, axial_deviator, axial_smul, ht]
    congr 2 <;> simp only [steel] <;> ring
  have hd : deviator (barM x) = axial (2 / 3 * x) (-(1 / 3) * x) := by
    rw [e, deviator_add, deviator_smul, C32.deviator_one, smul_zero, add_zero, axial_deviator]
    congr 1 <;> ring
  rw [mises, hd, frob, ← Real.sqrt_mul (by norm_num)]
  have : (3 / 2 : ℝ) * ∑ i, ∑ j, axial (2 / 3 * x) (-(1 / 3) * x) i j ^ 2 = x ^ 2 := by
    simp only [axial, Fin.sum_univ_three]
    simp
    ring
  rw [this, Real.sqrt_sq hx]

theorem bar_rep (t : ℝ) : RepM φ₁ t (barD t) bar := fun i j => by
  refine rep_iff.2 ⟨rfl, ?_⟩
  change HasDerivAt (fun x => bar x i j) (axial (Real.exp t) 0 i j) t
  by_cases h : i = j
  · subst h
    fin_cases i
    · simpa [bar, axial] using (Real.hasDerivAt_exp t).sub_const 1
    · simpa [bar, axial] using hasDerivAt_const t (0 : ℝ)
    · simpa [bar, axial] using hasDerivAt_const t (0 : ℝ)
  · simp only [bar, axial, Matrix.diagonal_apply_ne _ h]
    exact hasDerivAt_const _ _

theorem steel_Y : steel.Y State.initial.eqps = 1 / 100 := by simp [steel, J2.linearHardening, State.initial]

theorem steel_shear : 3 * shear steel = 3 / 2 := by norm_num [shear, steel]

theorem steel_tol : tol * steel.sigmaY = 1 / 10 ^ 12 := by norm_num [tol, steel]

/-- Before yield the derivative returned is that of the stress the code computes. -/
example : ∃ (σ : MatD ℝ) (S : ℝ → M3), updateD steel State.initial (barD (1 / 1000)) = some (σ, State.initial) ∧ RepM φ₁ (1 / 1000) σ S ∧
    ∀ᶠ x in 𝓝 (1 / 1000), update steel State.initial (bar x) = some (S x, State.initial, none) := by
  obtain ⟨σ, S, h1, h2, -, h4⟩ := C103_elastic steel_good initial_adm (bar_rep (1 / 1000)) (bar_det _) (bar_exact _).green (bar_hencky _) (by
    rw [bar_mises (by norm_num), steel_Y, steel_tol]; norm_num)
  exact ⟨σ, S, h1, h2, h4 (by rw [bar_mises (by norm_num), steel_Y, steel_tol]; norm_num) (Filter.Eventually.of_forall fun x => (bar_exact x).green)⟩

/-- After yield too. -/
example : ∃ (σ : MatD ℝ) (st' : State) (S : ℝ → M3), updateD steel State.initial (barD (1 / 50)) = some (σ, st') ∧ RepM φ₁ (1 / 50) σ S ∧
    ∀ᶠ x in 𝓝 (1 / 50), ∃ s r, update steel State.initial (bar x) = some (S x, s, some r) :=
  C103_linear_partial steel_good (Hi := 1) zero_le_one rfl rfl initial_adm (bar_rep (1 / 50)) (bar_det _) (Filter.Eventually.of_forall bar_exact) (bar_hencky _)
    (by rw [bar_mises (by norm_num), steel_Y, steel_tol]; norm_num)
    (Or.inr (Or.inr (by rw [bar_mises (by norm_num), steel_Y, steel_tol, steel_shear]; norm_num)))

/-- It is also that of an exact return mapping. -/
example : ∃ (σ : MatD ℝ) (st' : State) (S : ℝ → M3) (ρ : ℝ), |ρ| < 1 / 10 ^ 12 ∧ updateD steel State.initial (barD (1 / 50)) = some (σ, st') ∧ RepM φ₁ (1 / 50) σ S ∧
    ∀ᶠ x in 𝓝 (1 / 50), Return steel (fun a => steel.Y a + ρ) State.initial (bar x) (S x) := by
  have hX : (axial (2 * (1 / 50)) 0)ᵀ = axial (2 * (1 / 50)) 0 := Matrix.diagonal_transpose _
  have hexp : exp (axial (2 * (1 / 50)) 0) = green State.initial (bar (1 / 50)) := by rw [axial_exp, bar_green, Real.exp_zero]
  have hout : tol * steel.sigmaY < eqv steel (axial (2 * (1 / 50)) 0) - steel.Y State.initial.eqps := by
    rw [← eqv_mises steel_good hX hexp (bar_hencky _), bar_mises (by norm_num), steel_Y, steel_tol]
    norm_num
  obtain ⟨st', r, h1, h2⟩ := plastic_update steel_good initial_adm (bar_det _) (bar_exact _) hX hexp hout
  obtain ⟨h3, σ, S, h4, -, h5, h6⟩ := C103_tangent_partial steel_good initial_adm (fun a _ => linear_deriv (Hi := 1) rfl rfl a) (bar_rep (1 / 50)) (bar_det _) (bar_exact _) h1
    (linear_solve steel_good (Hi := 1) zero_le_one rfl rfl hout h2).1
  rw [steel_tol] at h3
  exact ⟨σ, st', S, _, h3, h4, h5, h6⟩

/-- Two parts in `10^12` above yield the derivative returned is not that of the stress computed. -/
example : ∃ (σ : MatD ℝ) (st' : State) (S : ℝ → M3), updateD steel State.initial (barD (1 / 100 + 2 / 10 ^ 12)) = some (σ, st') ∧
    (∀ᶠ x in 𝓝 (1 / 100 + 2 / 10 ^ 12), ∃ s r, update steel State.initial (bar x) = some (S x, s, some r)) ∧ ¬ RepM φ₁ (1 / 100 + 2 / 10 ^ 12) σ S := by
  obtain ⟨σ, st', S, h1, h2, h3⟩ := C103_band_wrong steel_good (Hi := 1) one_pos (by rw [steel_shear]; norm_num) rfl rfl initial_adm (bar_rep (1 / 100 + 2 / 10 ^ 12)) (bar_det _)
    (Filter.Eventually.of_forall bar_exact) (Filter.Eventually.of_forall bar_hencky)
    (by rw [bar_mises (by norm_num), steel_Y, steel_tol]; norm_num) (by rw [bar_mises (by norm_num), steel_Y, steel_tol, steel_shear]; norm_num)
  refine ⟨σ, st', S, h1, h2, fun h => ?_⟩
  have hd := h3.1 h
  have he : (fun x => mises (barM x)) =ᶠ[𝓝 (1 / 100 + 2 / 10 ^ 12)] fun x => x := by
    filter_upwards [lt_mem_nhds (show (0 : ℝ) < 1 / 100 + 2 / 10 ^ 12 by norm_num)] with x hx using bar_mises hx.le
  have := (he.hasDerivAt_iff.1 hd).unique (hasDerivAt_id _)
  norm_num at this

end Serac.C103
