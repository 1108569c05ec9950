import Verif.Model.Fit
import Mathlib.Algebra.Order.BigOperators.Ring.Finset
import Mathlib.Algebra.BigOperators.Field
import Mathlib.Tactic.Linarith
import Mathlib.Tactic.Ring
import Mathlib.Tactic.NormNum
import Mathlib.Tactic.FieldSimp
import Mathlib.Tactic.FinCases
/-!
# C69: `fit` returns the best approximation of the user's function

Spec.  `err R f x`: the squared difference of field and function, summed with the weights of a rule.  `fit` should minimise it, reproduce
functions of the space, keep integrals and act linearly and component by component.

Violation found: the mass term and the right-hand side use different rules if an auxiliary field has a higher order than the output.  Functions
of the space are then reproduced if and only if both rules give the same mass matrix (`C69_reproduce_iff`); on a tapered hexahedron a piecewise
constant fit of the constant 1 with a linear auxiliary field is more than 1.03 (`C69_constant_wrong`).
-/

noncomputable section
namespace Serac.C69
open Serac.Fit

/-! ## Spec -/

/-- Weighted squared difference between a field and a function. -/
def err {n c : ℕ} (R : Rule n) (f : Fin R.m → Fin c → ℝ) (x : Coeffs n c) : ℝ := ∑ q, R.w q * ∑ a, (R.value x q a - f q a) ^ 2

/-- The solver solved the system. -/
def Solved {n c : ℕ} (A : Rule n) (b x : Coeffs n c) : Prop := ∀ i a, massMul A x i a = b i a

/-- Only the zero field vanishes at all points: the mass matrix is positive definite. -/
def Unisolvent {n : ℕ} (R : Rule n) : Prop := (∀ q, 0 ≤ R.w q) ∧ ∀ v : Fin n → ℝ, (∀ q, R.w q ≠ 0 → ∑ i, v i * R.φ q i = 0) → v = 0

/-- Euclidean product of coefficients. -/
def dot {n c : ℕ} (x y : Coeffs n c) : ℝ := ∑ i, ∑ a, x i a * y i a

/-! ## Helper lemmas -/

theorem massMul_eq {n c : ℕ} (R : Rule n) (x : Coeffs n c) (i : Fin n) (a : Fin c) :
    massMul R x i a = ∑ q, R.w q * (R.φ q i * R.value x q a) := by
  unfold massMul mass Rule.value
  simp only [Finset.sum_mul, Finset.mul_sum]
  rw [Finset.sum_comm]
  refine Finset.sum_congr rfl fun q _ => Finset.sum_congr rfl fun j _ => ?_
  ring

/-- The weak form of the fit. -/
theorem dot_massMul {n c : ℕ} (R : Rule n) (x y : Coeffs n c) : dot y (massMul R x) = ∑ q, R.w q * ∑ a, R.value y q a * R.value x q a := by
  unfold dot
  simp only [massMul_eq, Finset.mul_sum]
  rw [show (∑ i, ∑ a, ∑ q, y i a * (R.w q * (R.φ q i * R.value x q a))) =
    ∑ q, ∑ a, ∑ i, y i a * (R.w q * (R.φ q i * R.value x q a)) by
      rw [Finset.sum_congr rfl fun i _ => Finset.sum_comm, Finset.sum_comm]
      refine Finset.sum_congr rfl fun q _ => Finset.sum_comm]
  refine Finset.sum_congr rfl fun q _ => Finset.sum_congr rfl fun a _ => ?_
  rw [show R.w q * (R.value y q a * R.value x q a) = ∑ i, R.w q * (y i a * R.φ q i * R.value x q a) by
    rw [← Finset.mul_sum, ← Finset.sum_mul]; rfl]
  refine Finset.sum_congr rfl fun i _ => ?_
  ring

theorem dot_load {n c : ℕ} (R : Rule n) (f : Fin R.m → Fin c → ℝ) (y : Coeffs n c) :
    dot y (load R f) = ∑ q, R.w q * ∑ a, R.value y q a * f q a := by
  unfold dot load
  simp only [Finset.mul_sum]
  rw [show (∑ i, ∑ a, ∑ q, y i a * (R.w q * (R.φ q i * f q a))) = ∑ q, ∑ a, ∑ i, y i a * (R.w q * (R.φ q i * f q a)) by
      rw [Finset.sum_congr rfl fun i _ => Finset.sum_comm, Finset.sum_comm]
      refine Finset.sum_congr rfl fun q _ => Finset.sum_comm]
  refine Finset.sum_congr rfl fun q _ => Finset.sum_congr rfl fun a _ => ?_
  rw [show R.w q * (R.value y q a * f q a) = ∑ i, R.w q * (y i a * R.φ q i * f q a) by
    rw [← Finset.mul_sum, ← Finset.sum_mul]; rfl]
  refine Finset.sum_congr rfl fun i _ => ?_
  ring

theorem value_sub {n c : ℕ} (R : Rule n) (x y : Coeffs n c) (q : Fin R.m) (a : Fin c) :
    R.value (fun i a => x i a - y i a) q a = R.value x q a - R.value y q a := by
  unfold Rule.value
  rw [← Finset.sum_sub_distrib]
  exact Finset.sum_congr rfl fun i _ => sub_mul _ _ _

theorem dot_congr {n c : ℕ} (y b b' : Coeffs n c) (h : ∀ i a, b i a = b' i a) : dot y b = dot y b' := by
  unfold dot; simp only [h]

/-- A positive definite mass matrix has a trivial kernel. -/
theorem kernel {n c : ℕ} (R : Rule n) (hR : Unisolvent R) (v : Coeffs n c) (h : ∀ i a, massMul R v i a = 0) : ∀ i a, v i a = 0 := by
  have h0 : (∑ q, R.w q * ∑ a, R.value v q a * R.value v q a) = 0 := by
    rw [← dot_massMul, dot_congr v _ (fun _ _ => 0) h]; simp [dot]
  have hq := (Finset.sum_eq_zero_iff_of_nonneg (fun q _ =>
    mul_nonneg (hR.1 q) (Finset.sum_nonneg fun a _ => mul_self_nonneg (R.value v q a)))).1 h0
  intro i a
  have := hR.2 (fun i => v i a) fun q hw => by
    have h1 := (mul_eq_zero.1 (hq q (Finset.mem_univ q))).resolve_left hw
    have h2 := (Finset.sum_eq_zero_iff_of_nonneg (fun a _ => mul_self_nonneg (R.value v q a))).1 h1 a (Finset.mem_univ a)
    exact mul_self_eq_zero.1 h2
  exact congrFun this i

theorem solved_unique {n c : ℕ} (R : Rule n) (hR : Unisolvent R) (b x y : Coeffs n c) (hx : Solved R b x) (hy : Solved R b y) : x = y := by
  have := kernel R hR (fun i a => x i a - y i a) fun i a => by
    have e : massMul R (fun i a => x i a - y i a) i a = massMul R x i a - massMul R y i a := by
      unfold massMul
      rw [← Finset.sum_sub_distrib]
      exact Finset.sum_congr rfl fun j _ => mul_sub _ _ _
    rw [e, hx, hy, sub_self]
  funext i a
  exact sub_eq_zero.1 (this i a)

/-! ## Theorems -/

/-- **Best approximation**: with one rule for both terms a solution has the smallest weighted squared difference of all fields of the space;
the excess of any other field is its squared distance to the fit. -/
theorem C69_best {n c : ℕ} (R : Rule n) (hw : ∀ q, 0 ≤ R.w q) (f : Fin R.m → Fin c → ℝ) (x : Coeffs n c) (hx : Solved R (load R f) x)
    (y : Coeffs n c) : err R f y = err R f x + ∑ q, R.w q * ∑ a, (R.value y q a - R.value x q a) ^ 2 ∧ err R f x ≤ err R f y := by
  have key : (∑ q, R.w q * ∑ a, (R.value y q a - R.value x q a) * (R.value x q a - f q a)) = 0 := by
    set d : Coeffs n c := fun i a => y i a - x i a with hd
    have h1 := dot_massMul R x d
    have h2 := dot_load R f d
    rw [dot_congr d _ _ hx, h2] at h1
    have : ∀ q, (∑ a, (R.value y q a - R.value x q a) * (R.value x q a - f q a)) =
        (∑ a, R.value d q a * R.value x q a) - ∑ a, R.value d q a * f q a := by
      intro q
      rw [← Finset.sum_sub_distrib]
      refine Finset.sum_congr rfl fun a _ => ?_
      rw [hd, value_sub, mul_sub]
    rw [Finset.sum_congr rfl fun q _ => by rw [this q, mul_sub], Finset.sum_sub_distrib, h1, sub_self]
  have e : err R f y = err R f x + ∑ q, R.w q * ∑ a, (R.value y q a - R.value x q a) ^ 2 := by
    have : err R f y = err R f x + (∑ q, R.w q * ∑ a, (R.value y q a - R.value x q a) ^ 2) +
        2 * ∑ q, R.w q * ∑ a, (R.value y q a - R.value x q a) * (R.value x q a - f q a) := by
      unfold err
      rw [Finset.mul_sum, ← Finset.sum_add_distrib, ← Finset.sum_add_distrib]
      refine Finset.sum_congr rfl fun q _ => ?_
      rw [← mul_add, mul_left_comm, ← mul_add]
      congr 1
      rw [Finset.mul_sum, ← Finset.sum_add_distrib, ← Finset.sum_add_distrib]
      refine Finset.sum_congr rfl fun a _ => ?_
      ring
    rw [this, key]; ring
  refine ⟨e, ?_⟩
  rw [e]
  exact le_add_of_nonneg_right (Finset.sum_nonneg fun q _ => mul_nonneg (hw q) (Finset.sum_nonneg fun a _ => sq_nonneg _))

/-- **One answer**: with enough points there is at most one solution, so the best approximation is unique. -/
theorem C69_unique {n c : ℕ} (R : Rule n) (hR : Unisolvent R) (f : Fin R.m → Fin c → ℝ) (x : Coeffs n c) (hx : Solved R (load R f) x)
    (y : Coeffs n c) (hy : err R f y ≤ err R f x) : y = x := by
  have h := (C69_best R hR.1 f x hx y).1
  have h0 : (∑ q, R.w q * ∑ a, (R.value y q a - R.value x q a) ^ 2) = 0 :=
    le_antisymm (by linarith) (Finset.sum_nonneg fun q _ => mul_nonneg (hR.1 q) (Finset.sum_nonneg fun a _ => sq_nonneg _))
  have hq := (Finset.sum_eq_zero_iff_of_nonneg (fun q _ =>
    mul_nonneg (hR.1 q) (Finset.sum_nonneg fun a _ => sq_nonneg (R.value y q a - R.value x q a)))).1 h0
  funext i a
  have := hR.2 (fun i => y i a - x i a) fun q hw => by
    have h1 := (mul_eq_zero.1 (hq q (Finset.mem_univ q))).resolve_left hw
    have h2 := (Finset.sum_eq_zero_iff_of_nonneg (fun a _ => sq_nonneg (R.value y q a - R.value x q a))).1 h1 a (Finset.mem_univ a)
    have h3 := pow_eq_zero_iff (two_ne_zero) |>.1 h2
    rw [← value_sub R y x q a] at h3
    exact h3
  exact sub_eq_zero.1 (congrFun this i)

/-- **Functions of the space** are reproduced, for every field and any number of components, if and only if the two rules have the same mass
matrix. -/
theorem C69_reproduce_iff {n c : ℕ} (hc : 0 < c) (A B : Rule n) (hA : Unisolvent A) :
    (∀ u x : Coeffs n c, Solved A (load B fun q a => B.value u q a) x → x = u) ∧
      (∀ u : Coeffs n c, Solved A (load B fun q a => B.value u q a) u) ↔ ∀ i j, mass A i j = mass B i j := by
  have hl : ∀ u : Coeffs n c, load B (fun q a => B.value u q a) = massMul B u := by
    intro u; funext i a; rw [massMul_eq]; rfl
  constructor
  · rintro ⟨-, h⟩ i j
    have := h (fun k _ => if k = j then 1 else 0) i ⟨0, hc⟩
    rw [hl] at this
    simpa [massMul] using this
  · intro h
    have hs : ∀ u : Coeffs n c, Solved A (load B fun q a => B.value u q a) u := by
      intro u i a
      rw [hl]
      unfold massMul
      simp only [h]
    exact ⟨fun u x hx => solved_unique A hA _ x u hx (hs u), hs⟩

/-- **Integrals are kept**: if the space contains the constants, the integral of each component of the fitted field (with the rule of the
mass term) is that of the function (with the rule of the right-hand side). -/
theorem C69_integral {n c : ℕ} (A B : Rule n) (hA : ∀ q, ∑ i, A.φ q i = 1) (hB : ∀ q, ∑ i, B.φ q i = 1) (f : Fin B.m → Fin c → ℝ)
    (x : Coeffs n c) (hx : Solved A (load B f) x) (a : Fin c) : ∑ q, A.w q * A.value x q a = ∑ q, B.w q * f q a := by
  have h : ∑ i, massMul A x i a = ∑ i, load B f i a := Finset.sum_congr rfl fun i _ => hx i a
  simp only [massMul_eq, load] at h
  rw [Finset.sum_comm, Finset.sum_comm (γ := Fin n)] at h
  simp only [← Finset.mul_sum, ← Finset.sum_mul, hA, hB, one_mul] at h
  exact h

/-- **`fit` itself**: with a solver that solves the mass system, the result `x` satisfies the weak form - the integral of `x` against any field `y`, with the rule of
the mass term, is that of the function against `y`, with the rule of the right-hand side - and no other field does if the mass is definite.  With the same rule it is
the best approximation. -/
theorem C69_fit {n c : ℕ} (cg : (Coeffs n c → Coeffs n c) → Coeffs n c → Coeffs n c) (A B : Rule n) (hcg : ∀ b, massMul A (cg (massMul A) b) = b)
    (f : Fin B.m → Fin c → ℝ) :
    (∀ y : Coeffs n c, ∑ q, A.w q * ∑ a, A.value y q a * A.value (fit cg A B f) q a = ∑ q, B.w q * ∑ a, B.value y q a * f q a) ∧
      (Unisolvent A → ∀ x : Coeffs n c, (∀ y : Coeffs n c, ∑ q, A.w q * ∑ a, A.value y q a * A.value x q a = ∑ q, B.w q * ∑ a, B.value y q a * f q a) →
        x = fit cg A B f) := by
  have hs : Solved A (load B f) (fit cg A B f) := fun i a => congrFun (congrFun (hcg (load B f)) i) a
  refine ⟨fun y => ?_, fun hA x hx => ?_⟩
  · rw [← dot_massMul, ← dot_load]
    exact dot_congr y _ _ hs
  · refine solved_unique A hA (load B f) _ _ (fun i a => ?_) hs
    have h := hx fun j b => if j = i ∧ b = a then 1 else 0
    rw [← dot_massMul, ← dot_load] at h
    unfold dot at h
    rw [Finset.sum_eq_single i (fun j _ hj => by simp [hj]) (by simp), Finset.sum_eq_single a (fun b _ hb => by simp [hb]) (by simp),
      Finset.sum_eq_single i (fun j _ hj => by simp [hj]) (by simp), Finset.sum_eq_single a (fun b _ hb => by simp [hb]) (by simp)] at h
    simpa using h

theorem C69_fit_best {n c : ℕ} (cg : (Coeffs n c → Coeffs n c) → Coeffs n c → Coeffs n c) (R : Rule n) (hw : ∀ q, 0 ≤ R.w q)
    (hcg : ∀ b, massMul R (cg (massMul R) b) = b) (f : Fin R.m → Fin c → ℝ) (y : Coeffs n c) : err R f (fit cg R R f) ≤ err R f y :=
  (C69_best R hw f _ (fun i a => congrFun (congrFun (hcg (load R f)) i) a) y).2

/-- **Linearity**: the fit of a combination is the combination of the fits. -/
theorem C69_linear {n c : ℕ} (A B : Rule n) (hA : Unisolvent A) (f g : Fin B.m → Fin c → ℝ) (s t : ℝ) (x y z : Coeffs n c)
    (hx : Solved A (load B f) x) (hy : Solved A (load B g) y) (hz : Solved A (load B fun q a => s * f q a + t * g q a) z) :
    z = fun i a => s * x i a + t * y i a := by
  refine solved_unique A hA _ _ _ hz fun i a => ?_
  have h1 : massMul A (fun i a => s * x i a + t * y i a) i a = s * massMul A x i a + t * massMul A y i a := by
    unfold massMul
    rw [Finset.mul_sum, Finset.mul_sum, ← Finset.sum_add_distrib]
    exact Finset.sum_congr rfl fun j _ => by ring
  rw [h1, hx, hy]
  unfold load
  rw [Finset.mul_sum, Finset.mul_sum, ← Finset.sum_add_distrib]
  exact Finset.sum_congr rfl fun q _ => by ring

/-- **Components** do not mix: a component of the fit depends only on that component of the function. -/
theorem C69_component {n c : ℕ} (A B : Rule n) (hA : Unisolvent A) (f g : Fin B.m → Fin c → ℝ) (x y : Coeffs n c)
    (hx : Solved A (load B f) x) (hy : Solved A (load B g) y) (a : Fin c) (hfg : ∀ q, f q a = g q a) : ∀ i, x i a = y i a := by
  have h := solved_unique (c := 1) A hA (fun i _ => load B f i a) (fun i _ => x i a) (fun i _ => y i a) (fun i _ => hx i a)
    (fun i _ => by
      have : load B f i a = load B g i a := by unfold load; simp only [hfg]
      show massMul A y i a = load B f i a
      rw [this, hy])
  intro i
  exact congrFun (congrFun h i) 0

/-- **Piecewise constants**: on an element with its own constant basis function the fit is the ratio of the integral of the function and the
volume, each with its own rule. -/
theorem C69_constant_element {n c : ℕ} (A B : Rule n) (e : Fin n) (hA : ∀ q j, A.φ q e * A.φ q j = if j = e then A.φ q e else 0)
    (hvol : ∑ q, A.w q * A.φ q e ≠ 0) (f : Fin B.m → Fin c → ℝ) (x : Coeffs n c) (hx : Solved A (load B f) x) (a : Fin c) :
    x e a = (∑ q, B.w q * (B.φ q e * f q a)) / ∑ q, A.w q * A.φ q e := by
  have h := hx e a
  unfold massMul at h
  rw [Finset.sum_eq_single e (fun j _ hj => by unfold mass; simp [hA, hj]) (fun h => absurd (Finset.mem_univ e) h)] at h
  have hm : mass A e e = ∑ q, A.w q * A.φ q e := by unfold mass; simp [hA]
  rw [hm] at h
  rw [eq_div_iff hvol, mul_comm]
  exact h

/-- **The solver's tolerance**: a result whose residual is `1e-12` of the right-hand side is, for a mass matrix with smallest eigenvalue `μ`, as
close to the exact fit as this says. -/
theorem C69_tolerance {n c : ℕ} (A : Rule n) (μ : ℝ) (hμ : 0 < μ) (hA : ∀ v : Coeffs n c, μ * dot v v ≤ dot v (massMul A v)) (b x y : Coeffs n c)
    (hx : Solved A b x) (hy : dot (fun i a => b i a - massMul A y i a) (fun i a => b i a - massMul A y i a) ≤ (1e-12) ^ 2 * dot b b) :
    dot (fun i a => x i a - y i a) (fun i a => x i a - y i a) ≤ (1e-12 / μ) ^ 2 * dot b b := by
  set v : Coeffs n c := fun i a => x i a - y i a with hv
  set r : Coeffs n c := fun i a => b i a - massMul A y i a with hr
  have hm : ∀ i a, massMul A v i a = r i a := by
    intro i a
    have : massMul A v i a = massMul A x i a - massMul A y i a := by
      unfold massMul
      rw [← Finset.sum_sub_distrib]
      exact Finset.sum_congr rfl fun j _ => mul_sub _ _ _
    rw [this, hx]
  have h1 : μ * dot v v ≤ dot v r := by rw [← dot_congr v _ _ hm]; exact hA v
  have cs : dot v r ^ 2 ≤ dot v v * dot r r := by
    unfold dot
    simp only [← Finset.sum_product']
    have := Finset.sum_mul_sq_le_sq_mul_sq (Finset.univ ×ˢ Finset.univ) (fun p : Fin n × Fin c => v p.1 p.2) (fun p => r p.1 p.2)
    simpa [sq] using this
  have hvv : 0 ≤ dot v v := Finset.sum_nonneg fun i _ => Finset.sum_nonneg fun a _ => mul_self_nonneg _
  have h2 : μ ^ 2 * dot v v ≤ dot r r := by
    rcases hvv.eq_or_lt with h0 | hpos
    · rw [← h0, mul_zero]
      exact Finset.sum_nonneg fun i _ => Finset.sum_nonneg fun a _ => mul_self_nonneg _
    · have h3 : (μ * dot v v) ^ 2 ≤ dot v v * dot r r := (pow_le_pow_left₀ (by positivity) h1 2).trans cs
      have h4 : dot v v * (μ ^ 2 * dot v v) ≤ dot v v * dot r r := by nlinarith
      exact le_of_mul_le_mul_left h4 hpos
  rw [div_pow, div_mul_eq_mul_div, le_div_iff₀ (by positivity)]
  linarith

/-! ## The tapered hexahedron -/

/-- The hexahedron `(ξ (1 + ζ), η (1 + ζ), ζ)`: a trilinear map with Jacobian determinant `(1 + ζ)²`, one constant basis function. -/
def tapered (r : Quadrature.Rule (ℚ × ℚ × ℚ)) : Rule 1 := Rule.ofList (r.map fun p => ((p.2 : ℝ) * (1 + (p.1.2.2 : ℝ)) ^ 2, fun _ => 1))

theorem sum_ofList {n : ℕ} (l : List (ℝ × (Fin n → ℝ))) (g : ℝ × (Fin n → ℝ) → ℝ) :
    ∑ q : Fin (Rule.ofList l).m, g (l.get q) = (l.map g).sum := by
  show ∑ q : Fin l.length, g (l.get q) = _
  rw [← List.sum_ofFn]
  congr 1
  apply List.ext_getElem (by simp)
  intro k h1 h2
  simp

/-- **Different rules**: the piecewise constant fit (`L2<0>`, one point) of the constant 1 on the tapered hexahedron with a linear auxiliary field
(two points per direction) is not 1, whatever solver result is accepted. -/
theorem C69_constant_wrong : ∃ r₁ r₂, Quadrature.cube (Quadrature.functionalQ 0 [0]) = some r₁ ∧
    Quadrature.cube (Quadrature.functionalQ 0 [1]) = some r₂ ∧
    ∀ x : Coeffs 1 1, Solved (tapered r₁) (load (tapered r₂) fun _ _ => 1) x → (1.03 : ℝ) < x 0 0 := by
  have vol : ∀ r, mass (tapered r) 0 0 = (r.map fun p => (p.2 : ℝ) * (1 + (p.1.2.2 : ℝ)) ^ 2).sum := by
    intro r
    unfold mass tapered
    rw [← show _ = (r.map fun p => (p.2 : ℝ) * (1 + (p.1.2.2 : ℝ)) ^ 2).sum from (by rw [List.map_map]; simp [Function.comp_def] :
      ((r.map fun p => (((p.2 : ℝ) * (1 + (p.1.2.2 : ℝ)) ^ 2, fun _ => 1) : ℝ × (Fin 1 → ℝ))).map fun p => p.1 * (p.2 0 * p.2 0)).sum = _),
      ← sum_ofList]
    rfl
  refine ⟨_, _, rfl, rfl, fun x hx => ?_⟩
  have h := hx 0 0
  have h1 : ∀ r, load (tapered r) (fun _ _ => 1) (0 : Fin 1) (0 : Fin 1) = mass (tapered r) 0 0 := by
    intro r
    unfold load mass
    refine Finset.sum_congr rfl fun q _ => ?_
    have : (tapered r).φ q 0 = 1 := by simp [tapered, Rule.ofList]
    rw [this]
  rw [h1] at h
  unfold massMul at h
  rw [Fin.sum_univ_one, vol, vol] at h
  norm_num [Quadrature.functionalQ, Quadrature.segmentNodes, Quadrature.segmentWeights] at h
  norm_num
  linarith

/-! ## Examples -/

/-- Two nodes, linear basis, two points: enough points. -/
def line : Rule 2 := ⟨2, ![1/2, 1/2], ![![1, 0], ![0, 1]]⟩

theorem line_sum (g : Fin 2 → ℝ) : (∑ q : Fin line.m, g q) = g 0 + g 1 := Fin.sum_univ_two g

theorem line_mass (i j : Fin 2) : mass line i j = if i = j then 1 / 2 else 0 := by
  unfold mass
  rw [line_sum fun q => line.w q * (line.φ q i * line.φ q j)]
  fin_cases i <;> fin_cases j <;> simp [line]

theorem line_ok : Unisolvent line := by
  constructor
  · intro (q : Fin 2)
    show (0 : ℝ) ≤ (![1/2, 1/2] : Fin 2 → ℝ) q
    fin_cases q <;> norm_num
  · intro v h
    have h0 := h (0 : Fin 2) (by show (![1/2, 1/2] : Fin 2 → ℝ) 0 ≠ 0; norm_num)
    have h1 := h (1 : Fin 2) (by show (![1/2, 1/2] : Fin 2 → ℝ) 1 ≠ 0; norm_num)
    simp [line] at h0 h1
    funext i
    fin_cases i <;> simp [h0, h1]

/-- The values 3 and 5 at the two nodes. -/
def g35 (q : Fin 2) : ℝ := if q = 0 then 3 else 5

example : Solved (c := 1) line (load line fun q _ => g35 q) fun i _ => g35 i := by
  intro i a
  unfold massMul load
  rw [Fin.sum_univ_two, line_sum fun q => line.w q * (line.φ q i * g35 q), line_mass, line_mass]
  fin_cases i <;> simp [line, g35]

example : (∀ q, ∑ i, line.φ q i = 1) := by
  intro (q : Fin 2)
  fin_cases q <;> simp [line]

/-- The smallest eigenvalue of that mass matrix is a half. -/
example (v : Coeffs 2 1) : (1 / 2 : ℝ) * dot v v ≤ dot v (massMul line v) := by
  simp only [dot, massMul, line_mass, Fin.sum_univ_two, Fin.sum_univ_one]
  norm_num
  nlinarith

/-- A solver for that mass matrix (half the identity), and its fit. -/
example : (∀ b : Coeffs 2 1, massMul line ((fun _ b i a => 2 * b i a) (massMul (c := 1) line) b) = b) ∧
    fit (c := 1) (fun _ b i a => 2 * b i a) line line (fun q _ => g35 q) = fun i _ => g35 i := by
  constructor
  · intro b
    funext i a
    simp only [massMul, line_mass, Fin.sum_univ_two]
    fin_cases i <;> fin_cases a <;> norm_num <;> ring
  · funext i a
    unfold fit load
    dsimp only
    rw [line_sum fun q => line.w q * (line.φ q i * g35 q)]
    fin_cases i <;> simp [line, g35]

end Serac.C69
