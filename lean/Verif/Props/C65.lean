import Verif.Model.Loads
import Verif.Proofs.Transforms
import Verif.Props.C64
import Mathlib.LinearAlgebra.Matrix.NonsingularInverse
import Mathlib.Analysis.Calculus.Deriv.Mul
import Mathlib.Analysis.Calculus.Deriv.Add
import Mathlib.Tactic.LinearCombination
/-!
# C65: loads act with the stated direction, size and place

* `C65_pressure3/2`, `C65_traction3/2`, `C65_flux3`: what a load leaves at one point of the boundary, with shape displacement, and when it is undefined.
* `C65_nanson`: the follower load is `det F F⁻ᵀ N`.
* `C65_force`, `C65_moment`, `C65_conservative`: uniform pressure on a closed surface.
* `C65_balance`, `C65_heat_balance`: sums of residuals.
-/

noncomputable section
namespace Serac.C65
open Serac.Tensor Serac.Transform Serac.Loads

local notation "len" => Serac.Transform.norm

theorem len_zero {n : ℕ} (v : Vec ℝ n) : len v = 0 ↔ v = 0 := by
  unfold Serac.Transform.norm
  rw [sqNormV_eq, Real.sqrt_eq_zero (Finset.sum_nonneg fun i _ => mul_self_nonneg _), Finset.sum_eq_zero_iff_of_nonneg fun i _ => mul_self_nonneg _]
  constructor
  · intro h
    funext i
    exact mul_self_eq_zero.1 (h i (Finset.mem_univ i))
  · rintro rfl i _
    simp

theorem len_nonneg {n : ℕ} (v : Vec ℝ n) : 0 ≤ len v := Real.sqrt_nonneg _

theorem divN_some {n : ℕ} (v : Vec ℝ n) (s : ℝ) (h : s ≠ 0) : divN v s = some (s⁻¹ • v) := by
  rw [divN, if_neg h, divV_eq]

theorem divN_none {n : ℕ} (v : Vec ℝ n) : divN v 0 = none := if_pos rfl

/-! ## At one point -/

/-- The derivative of the position in which a pressure acts. -/
def current {α : Type} [Add α] [Zero α] (on : Bool) (dX dp du : α) : α := dX + dp + (if on then du else 0)

/-- **C65, pressure in three dimensions**: the load at a point is the pressure, evaluated at the position before deformation, times the cross product of the tangents of the
shape-displaced and, with geometric nonlinearities, deformed face; it is undefined exactly when the given or the shape-displaced face is degenerate. -/
theorem C65_pressure3 (on : Bool) (f : Vec ℝ 3 → ℝ → ℝ) (t : ℝ) (X p u : Face3) :
    (crossCols X.2 ≠ 0 → crossCols (X.2 + p.2) ≠ 0 → pressureAt3 on f t X p u = some (f (X.1 + p.1) t • crossCols (current on X.2 p.2 u.2))) ∧
    (crossCols X.2 = 0 ∨ crossCols (X.2 + p.2) = 0 → pressureAt3 on f t X p u = none) := by
  have hx : (if on then add3 (add3 (add3 X p) (zero3 u)) u else add3 (add3 X p) (zero3 u)).2 = current on X.2 p.2 u.2 := by
    cases on <;> simp [current, add3, zero3, addM_eq, smulM_eq]
  have e : pressureAt3 on f t X p u = (((divN (crossCols (current on X.2 p.2 u.2)) (len (crossCols (X.2 + p.2)))).map fun n => smulV n (f (X.1 + p.1) t)).bind fun r =>
      open Classical in if len (crossCols X.2) = 0 then none else some (smulV r (areaCorrection3 X.2 p.2))).map fun r => smulV r (len (crossCols X.2)) := by
    rw [← hx]
    rfl
  constructor
  · intro h1 h2
    have n1 := (len_zero (crossCols X.2)).not.2 h1
    have n2 := (len_zero (crossCols (X.2 + p.2))).not.2 h2
    rw [e, divN_some _ _ n2]
    simp only [Option.map_some, Option.bind_some, if_neg n1]
    refine congrArg some ?_
    simp only [smulV_eq, smul_smul, areaCorrection3, addM_eq]
    congr 1
    field_simp
  · rintro (h | h)
    · have n1 := (len_zero (crossCols X.2)).2 h
      rw [e]
      cases hd : divN (crossCols (current on X.2 p.2 u.2)) (len (crossCols (X.2 + p.2))) <;> simp [n1]
    · have n2 := (len_zero (crossCols (X.2 + p.2))).2 h
      rw [e, n2, divN_none]
      rfl

/-- **C65, pressure in two dimensions.** -/
theorem C65_pressure2 (on : Bool) (f : Vec ℝ 2 → ℝ → ℝ) (t : ℝ) (X p u : Face2) :
    (X.2 ≠ 0 → X.2 + p.2 ≠ 0 → pressureAt2 on f t X p u = some (f (X.1 + p.1) t • crossFace2 (current on X.2 p.2 u.2))) ∧
    (X.2 = 0 ∨ X.2 + p.2 = 0 → pressureAt2 on f t X p u = none) := by
  have hz : ∀ v : Vec ℝ 2, crossFace2 v = 0 ↔ v = 0 := by
    intro v
    constructor
    · intro h
      have h0 := congrFun h 0
      have h1 := congrFun h 1
      simp [crossFace2] at h0 h1
      funext i
      fin_cases i
      · exact h1
      · exact h0
    · rintro rfl
      funext i
      fin_cases i <;> simp [crossFace2]
  have hx : (if on then add2 (add2 (add2 X p) (zero2 u)) u else add2 (add2 X p) (zero2 u)).2 = current on X.2 p.2 u.2 := by
    cases on <;> simp [current, add2, zero2, addV_eq, smulV_eq]
  have e : pressureAt2 on f t X p u = (((divN (crossFace2 (current on X.2 p.2 u.2)) (len (crossFace2 (X.2 + p.2)))).map fun n => smulV n (f (X.1 + p.1) t)).bind fun r =>
      open Classical in if len (crossFace2 X.2) = 0 then none else some (smulV r (areaCorrection2 X.2 p.2))).map fun r => smulV r (len (crossFace2 X.2)) := by
    rw [← hx]
    rfl
  constructor
  · intro h1 h2
    have n1 := (len_zero (crossFace2 X.2)).not.2 ((hz _).not.2 h1)
    have n2 := (len_zero (crossFace2 (X.2 + p.2))).not.2 ((hz _).not.2 h2)
    rw [e, divN_some _ _ n2]
    simp only [Option.map_some, Option.bind_some, if_neg n1]
    refine congrArg some ?_
    simp only [smulV_eq, smul_smul, areaCorrection2, addV_eq]
    congr 1
    field_simp
  · rintro (h | h)
    · have n1 := (len_zero (crossFace2 X.2)).2 ((hz _).2 h)
      rw [e]
      cases hd : divN (crossFace2 (current on X.2 p.2 u.2)) (len (crossFace2 (X.2 + p.2))) <;> simp [n1]
    · have n2 := (len_zero (crossFace2 (X.2 + p.2))).2 ((hz _).2 h)
      rw [e, n2, divN_none]
      rfl

/-- The unit normal of a face. -/
def unit {n : ℕ} (v : Vec ℝ n) : Vec ℝ n := (len v)⁻¹ • v

/-- It has length one and is perpendicular to both tangents. -/
theorem C65_normal (J : Mat ℝ 3 2) (h : crossCols J ≠ 0) : len (unit (crossCols J)) = 1 ∧ ∀ k, ∑ i, unit (crossCols J) i * J i k = 0 := by
  have hl := (len_zero (crossCols J)).not.2 h
  constructor
  · have hp : 0 < len (crossCols J) := lt_of_le_of_ne (len_nonneg _) (Ne.symm hl)
    have hs : len (crossCols J) ^ 2 = ∑ i, crossCols J i * crossCols J i := by
      unfold Serac.Transform.norm
      rw [sqNormV_eq, Real.sq_sqrt (Finset.sum_nonneg fun i _ => mul_self_nonneg _)]
    have : len (unit (crossCols J)) = Real.sqrt 1 := by
      conv_lhs => unfold Serac.Transform.norm
      rw [sqNormV_eq]
      congr 1
      have : ∀ i, unit (crossCols J) i * unit (crossCols J) i = (len (crossCols J))⁻¹ ^ 2 * (crossCols J i * crossCols J i) := fun i => by
        simp only [unit, Pi.smul_apply, smul_eq_mul]; ring
      simp only [this]
      rw [← Finset.mul_sum, ← hs]
      field_simp
    rw [this, Real.sqrt_one]
  · intro k
    have : ∀ i, unit (crossCols J) i * J i k = (len (crossCols J))⁻¹ * (crossCols J i * J i k) := fun i => by
      simp only [unit, Pi.smul_apply, smul_eq_mul]; ring
    simp only [this]
    rw [← Finset.mul_sum]
    have h0 : ∑ i, crossCols J i * J i k = 0 := by
      rw [Fin.sum_univ_three]
      fin_cases k <;> simp [crossCols] <;> ring
    rw [h0, mul_zero]

/-- **C65, traction in three dimensions**: minus the user's traction, evaluated at the shape-displaced position with its unit normal, times the area of the shape-displaced
face; it does not depend on the displacement. -/
theorem C65_traction3 (f : Vec ℝ 3 → Vec ℝ 3 → ℝ → Vec ℝ 3) (t : ℝ) (X p : Face3) :
    (crossCols X.2 ≠ 0 → crossCols (X.2 + p.2) ≠ 0 →
      tractionAt3 f t X p = some (-(len (crossCols (X.2 + p.2)) • f (X.1 + p.1) (unit (crossCols (X.2 + p.2))) t))) ∧
    (crossCols X.2 = 0 ∨ crossCols (X.2 + p.2) = 0 → tractionAt3 f t X p = none) := by
  have e : tractionAt3 f t X p = (((divN (crossCols (X.2 + p.2)) (len (crossCols (X.2 + p.2)))).map fun n => smulV (f (X.1 + p.1) n t) (-1)).bind fun r =>
      open Classical in if len (crossCols X.2) = 0 then none else some (smulV r (areaCorrection3 X.2 p.2))).map fun r => smulV r (len (crossCols X.2)) := rfl
  constructor
  · intro h1 h2
    have n1 := (len_zero (crossCols X.2)).not.2 h1
    have n2 := (len_zero (crossCols (X.2 + p.2))).not.2 h2
    rw [e, divN_some _ _ n2]
    simp only [Option.map_some, Option.bind_some, if_neg n1]
    refine congrArg some ?_
    simp only [smulV_eq, smul_smul, areaCorrection3, addM_eq, ← neg_smul]
    congr 1
    field_simp
  · rintro (h | h)
    · have n1 := (len_zero (crossCols X.2)).2 h
      rw [e]
      cases hd : divN (crossCols (X.2 + p.2)) (len (crossCols (X.2 + p.2))) <;> simp [n1]
    · have n2 := (len_zero (crossCols (X.2 + p.2))).2 h
      rw [e, n2, divN_none]
      rfl

/-- **C65, traction in two dimensions.** -/
theorem C65_traction2 (f : Vec ℝ 2 → Vec ℝ 2 → ℝ → Vec ℝ 2) (t : ℝ) (X p : Face2) (h1 : crossFace2 X.2 ≠ 0) (h2 : crossFace2 (X.2 + p.2) ≠ 0) :
    tractionAt2 f t X p = some (-(len (crossFace2 (X.2 + p.2)) • f (X.1 + p.1) (unit (crossFace2 (X.2 + p.2))) t)) := by
  have e : tractionAt2 f t X p = (((divN (crossFace2 (X.2 + p.2)) (len (crossFace2 (X.2 + p.2)))).map fun n => smulV (f (X.1 + p.1) n t) (-1)).bind fun r =>
      open Classical in if len (crossFace2 X.2) = 0 then none else some (smulV r (areaCorrection2 X.2 p.2))).map fun r => smulV r (len (crossFace2 X.2)) := rfl
  have n1 := (len_zero (crossFace2 X.2)).not.2 h1
  have n2 := (len_zero (crossFace2 (X.2 + p.2))).not.2 h2
  rw [e, divN_some _ _ n2]
  simp only [Option.map_some, Option.bind_some, if_neg n1]
  refine congrArg some ?_
  simp only [smulV_eq, smul_smul, areaCorrection2, addV_eq, ← neg_smul]
  congr 1
  field_simp

/-- **C65, heat flux**: the user's flux times the area of the shape-displaced face, with the sign it has. -/
theorem C65_flux3 (f : Vec ℝ 3 → Vec ℝ 3 → ℝ → ℝ → ℝ) (t temp : ℝ) (X p : Face3) (h1 : crossCols X.2 ≠ 0) (h2 : crossCols (X.2 + p.2) ≠ 0) :
    fluxAt3 f t temp X p = some fun _ => len (crossCols (X.2 + p.2)) * f (X.1 + p.1) (unit (crossCols (X.2 + p.2))) t temp := by
  have e : fluxAt3 f t temp X p = (((divN (crossCols (X.2 + p.2)) (len (crossCols (X.2 + p.2)))).map fun n => (fun _ => f (X.1 + p.1) n t temp : Vec ℝ 1)).bind fun r =>
      open Classical in if len (crossCols X.2) = 0 then none else some (smulV r (areaCorrection3 X.2 p.2))).map fun r => smulV r (len (crossCols X.2)) := rfl
  have n1 := (len_zero (crossCols X.2)).not.2 h1
  have n2 := (len_zero (crossCols (X.2 + p.2))).not.2 h2
  rw [e, divN_some _ _ n2]
  simp only [Option.map_some, Option.bind_some, if_neg n1]
  refine congrArg some ?_
  funext _
  simp only [smulV_eq, areaCorrection3, addM_eq, Pi.smul_apply, smul_eq_mul, unit]
  field_simp

/-- **C65, pressure is a traction against the normal**: without deformation a pressure and the traction `-p n` leave the same load. -/
theorem C65_pressure_traction (on : Bool) (f : Vec ℝ 3 → ℝ → ℝ) (t : ℝ) (X p : Face3) (h1 : crossCols X.2 ≠ 0) (h2 : crossCols (X.2 + p.2) ≠ 0) :
    pressureAt3 on f t X p (0, 0) = tractionAt3 (fun x n t => -(f x t • n)) t X p := by
  rw [(C65_pressure3 on f t X p (0, 0)).1 h1 h2, (C65_traction3 _ t X p).1 h1 h2]
  refine congrArg some ?_
  have n2 := (len_zero (crossCols (X.2 + p.2))).not.2 h2
  have hc : current on X.2 p.2 (0 : Mat ℝ 3 2) = X.2 + p.2 := by cases on <;> simp [current]
  simp only [hc, unit, smul_neg, neg_neg, smul_smul]
  congr 1
  field_simp

/-- **C65, the follower load**: when the derivative of the displacement on the face comes from a displacement gradient `H`, the load is the pressure times
`det F F⁻ᵀ` applied to the area vector of the undeformed face (Nanson's formula), `F = 1 + H`. -/
theorem C65_nanson (H : Mat ℝ 3 3) (J : Mat ℝ 3 2) (hF : (1 + H).det ≠ 0) :
    crossCols (J + H * J) = (1 + H).det • (((1 + H)⁻¹).transpose.mulVec (crossCols J)) := by
  have h1 : J + H * J = (1 + H) * J := by rw [Matrix.add_mul, Matrix.one_mul]
  rw [h1]
  generalize 1 + H = F at hF
  have hadj : F.det • (F⁻¹).transpose = F.adjugate.transpose := by
    rw [Matrix.inv_def, Ring.inverse_eq_inv', Matrix.transpose_smul, smul_smul, mul_inv_cancel₀ hF, one_smul]
  rw [← Matrix.smul_mulVec, hadj]
  funext i
  fin_cases i <;>
    simp [crossCols, Matrix.adjugate_fin_three, Matrix.mulVec, dotProduct, Fin.sum_univ_three, Matrix.mul_apply] <;> ring

/-! ## Closed surfaces -/

/-- A triangulated surface by the numbers of its vertices is closed: every function of directed edges that changes sign with the direction adds up to zero. -/
def Closed {I : Type} (T : List (I × I × I)) : Prop :=
  ∀ w : I → I → ℝ, (∀ a b, w b a = - w a b) → (T.map fun t => w t.1 t.2.1 + w t.2.1 t.2.2 + w t.2.2 t.1).sum = 0

/-- Face derivative of a linear triangle with corners `a, b, c`. -/
def tangents (a b c : Vec ℝ 3) : Mat ℝ 3 2 := fun i k => if k = 0 then b i - a i else c i - a i

/-- Load of a uniform pressure on a vertex of a linear triangle: the sum over quadrature points of weight and shape function times the load of `C65_pressure3`. -/
def nodal {nq : ℕ} (w : Fin nq → ℝ) (N : Fin nq → Fin 3 → ℝ) (pr : ℝ) (a b c : Vec ℝ 3) (k : Fin 3) : Vec ℝ 3 :=
  fun i => ∑ q, w q * (N q k * (pr • crossCols (tangents a b c)) i)

theorem nodal_eq {nq : ℕ} (w : Fin nq → ℝ) (N : Fin nq → Fin 3 → ℝ) (hw : ∀ k, ∑ q, w q * N q k = 1 / 6) (pr : ℝ) (a b c : Vec ℝ 3) (k : Fin 3) :
    nodal w N pr a b c k = (pr / 6) • crossCols (tangents a b c) := by
  funext i
  unfold nodal
  have : ∀ q, w q * (N q k * (pr • crossCols (tangents a b c)) i) = w q * N q k * (pr * crossCols (tangents a b c) i) := fun q => by
    simp only [Pi.smul_apply, smul_eq_mul]; ring
  simp only [this]
  rw [← Finset.sum_mul, hw]
  simp only [Pi.smul_apply, smul_eq_mul]
  ring

variable {I : Type}

/-- **C65, no net force**: the loads of a uniform pressure on any closed triangulated surface, in any configuration `x`, add up to zero. -/
theorem C65_force {nq : ℕ} (w : Fin nq → ℝ) (N : Fin nq → Fin 3 → ℝ) (hw : ∀ k, ∑ q, w q * N q k = 1 / 6) (pr : ℝ) (T : List (I × I × I)) (hT : Closed T) (x : I → Vec ℝ 3)
    (i : Fin 3) : (T.map fun t => ∑ k, nodal w N pr (x t.1) (x t.2.1) (x t.2.2) k i).sum = 0 := by
  have h := hT (fun a b => pr / 2 * cross (x a) (x b) i) (fun a b => by fin_cases i <;> simp [cross] <;> ring)
  rw [← h]
  congr 1
  refine List.map_congr_left fun t _ => ?_
  simp only [nodal_eq w N hw, Fin.sum_univ_three, Pi.smul_apply, smul_eq_mul]
  fin_cases i <;> simp [crossCols, tangents, cross] <;> ring

/-- **C65, no net moment**: neither do they turn the body, about any point `o`. -/
theorem C65_moment {nq : ℕ} (w : Fin nq → ℝ) (N : Fin nq → Fin 3 → ℝ) (hw : ∀ k, ∑ q, w q * N q k = 1 / 6) (pr : ℝ) (T : List (I × I × I)) (hT : Closed T) (x : I → Vec ℝ 3)
    (o : Vec ℝ 3) (i : Fin 3) :
    (T.map fun t => ∑ k, cross (![x t.1, x t.2.1, x t.2.2] k - o) (nodal w N pr (x t.1) (x t.2.1) (x t.2.2) k) i).sum = 0 := by
  let d : Vec ℝ 3 → Vec ℝ 3 → ℝ := fun a b => a 0 * b 0 + a 1 * b 1 + a 2 * b 2
  have h := hT (fun a b => pr / 6 * ((d (x a - o) (x b - o) + d (x b - o) (x b - o)) * (x a - o) i - (d (x a - o) (x b - o) + d (x a - o) (x a - o)) * (x b - o) i))
    (fun a b => by simp only [d]; ring)
  rw [← h]
  congr 1
  refine List.map_congr_left fun t _ => ?_
  simp only [nodal_eq w N hw, Fin.sum_univ_three]
  fin_cases i <;> simp [crossCols, tangents, cross, d] <;> ring

/-- Six times the volume enclosed by a closed triangulated surface. -/
def volume6 (T : List (I × I × I)) (x : I → Vec ℝ 3) : ℝ :=
  (T.map fun t => ∑ i, x t.1 i * cross (x t.2.1) (x t.2.2) i).sum

/-- Virtual work of the loads of a uniform pressure. -/
def work {nq : ℕ} (w : Fin nq → ℝ) (N : Fin nq → Fin 3 → ℝ) (pr : ℝ) (T : List (I × I × I)) (x δ : I → Vec ℝ 3) : ℝ :=
  (T.map fun t => ∑ k, ∑ i, nodal w N pr (x t.1) (x t.2.1) (x t.2.2) k i * (![δ t.1, δ t.2.1, δ t.2.2] k) i).sum

theorem hasDerivAt_sum {α : Type} (l : List α) (f : α → ℝ → ℝ) (f' : α → ℝ) (s : ℝ) (h : ∀ a ∈ l, HasDerivAt (f a) (f' a) s) :
    HasDerivAt (fun s => (l.map fun a => f a s).sum) (l.map f').sum s := by
  induction l with
  | nil => simpa using hasDerivAt_const s (0 : ℝ)
  | cons a l ih =>
    simp only [List.map_cons, List.sum_cons]
    exact (h a (by simp)).add (ih fun b hb => h b (by simp [hb]))

/-- **C65, uniform pressure on a closed surface is conservative**: the virtual work of its loads in the current configuration is the derivative of pressure times enclosed
volume, for every configuration and every variation. -/
theorem C65_conservative {nq : ℕ} (w : Fin nq → ℝ) (N : Fin nq → Fin 3 → ℝ) (hw : ∀ k, ∑ q, w q * N q k = 1 / 6) (pr : ℝ) (T : List (I × I × I)) (hT : Closed T)
    (x δ : I → Vec ℝ 3) (s : ℝ) : HasDerivAt (fun s => pr * (volume6 T (fun a => x a + s • δ a) / 6)) (work w N pr T (fun a => x a + s • δ a) δ) s := by
  let y : I → Vec ℝ 3 := fun a => x a + s • δ a
  let D : I × I × I → ℝ := fun t => (∑ i, δ t.1 i * cross (y t.2.1) (y t.2.2) i) + (∑ i, δ t.2.1 i * cross (y t.2.2) (y t.1) i) + ∑ i, δ t.2.2 i * cross (y t.1) (y t.2.1) i
  have hD : HasDerivAt (fun s => volume6 T (fun a => x a + s • δ a)) (T.map D).sum s := by
    apply hasDerivAt_sum
    intro t _
    have hl : ∀ a i, HasDerivAt (fun s : ℝ => x a i + s * δ a i) (δ a i) s := fun a i => by
      simpa using ((hasDerivAt_id s).mul_const (δ a i)).const_add (x a i)
    have h := ((hl t.1 0).mul (((hl t.2.1 1).mul (hl t.2.2 2)).sub ((hl t.2.1 2).mul (hl t.2.2 1)))).add
      (((hl t.1 1).mul (((hl t.2.1 2).mul (hl t.2.2 0)).sub ((hl t.2.1 0).mul (hl t.2.2 2)))).add
      ((hl t.1 2).mul (((hl t.2.1 0).mul (hl t.2.2 1)).sub ((hl t.2.1 1).mul (hl t.2.2 0)))))
    refine (h.congr_of_eventuallyEq (Filter.Eventually.of_forall fun r => ?_)).congr_deriv ?_
    · simp only [Fin.sum_univ_three, cross, Pi.add_apply, Pi.smul_apply, smul_eq_mul, Pi.mul_apply, Pi.sub_apply, Matrix.cons_val_zero, Matrix.cons_val_one, Matrix.cons_val]
      ring
    · simp only [D, y, Fin.sum_univ_three, cross, Pi.add_apply, Pi.smul_apply, smul_eq_mul, Pi.mul_apply, Pi.sub_apply, Matrix.cons_val_zero, Matrix.cons_val_one, Matrix.cons_val]
      ring
  have hW : work w N pr T y δ = pr * ((T.map D).sum / 6) := by
    have h := hT (fun a b => pr / 6 * ∑ i, (δ a i + δ b i) * cross (y a) (y b) i) (fun a b => by simp only [Fin.sum_univ_three]; simp [cross]; ring)
    have : work w N pr T y δ = pr * ((T.map D).sum / 6) + (T.map fun t => pr / 6 * (∑ i, (δ t.1 i + δ t.2.1 i) * cross (y t.1) (y t.2.1) i) +
        pr / 6 * (∑ i, (δ t.2.1 i + δ t.2.2 i) * cross (y t.2.1) (y t.2.2) i) + pr / 6 * (∑ i, (δ t.2.2 i + δ t.1 i) * cross (y t.2.2) (y t.1) i)).sum := by
      unfold work
      clear hT h hD
      induction T with
      | nil => simp
      | cons t T ih =>
        simp only [List.map_cons, List.sum_cons]
        rw [ih]
        simp only [nodal_eq w N hw, Fin.sum_univ_three, D]
        simp [crossCols, tangents, cross]
        ring
    rw [this, h, add_zero]
  have := (hD.div_const 6).const_mul pr
  rw [show work w N pr T (fun a => x a + s • δ a) δ = pr * ((T.map D).sum / 6) from hW]
  exact this

/-- The boundary of every ball mesh is closed. -/
theorem C65_ball_closed (choice : MeshBuild.Tet → Fin 3) (a : ℤ) (m : MeshBuild.Mesh MeshBuild.Tet (MeshBuild.Tri 3))
    (h : MeshBuild.BallMesh (fun t => MeshBuild.tetSplit (choice t) t) a m) : Closed (m.bdr.map fun s => (s.p0, s.p1, s.p2)) := by
  intro w hw
  have e := C64.C64_ball_conforming choice a m h (fun p q r => w p q + w q r + w r p)
    ⟨fun p q r => by rw [hw p q, hw r p, hw q r]; ring, fun p q r => by rw [hw q r, hw p q, hw r p]; ring⟩
  rw [List.map_map]
  have z : (m.elems.map (C64.faces fun p q r => w p q + w q r + w r p)).sum = 0 := by
    apply List.sum_eq_zero
    intro v hv
    obtain ⟨t, -, rfl⟩ := List.mem_map.1 hv
    unfold C64.faces
    dsimp only
    rw [hw t.p0 t.p1, hw t.p0 t.p2, hw t.p0 t.p3, hw t.p1 t.p2, hw t.p1 t.p3, hw t.p2 t.p3]
    ring
  rw [z] at e
  exact e.symm

/-! ## Balance -/

/-- **C65, balance of forces**: the residuals of all nodes add up to inertia minus body forces plus the loads of the boundary points, whatever the stress; in equilibrium of
the free nodes this is the sum of the reactions. -/
theorem C65_balance {n d c nq nb : ℕ} (w : Fin nq → ℝ) (N : Fin nq → Fin n → ℝ) (B : Fin nq → Fin n → Fin d → ℝ) (hN : ∀ q, ∑ a, N q a = 1) (hB : ∀ q j, ∑ a, B q a j = 0)
    (density : Fin nq → ℝ) (acc force : Fin nq → Vec ℝ c) (flux : Fin nq → Mat ℝ c d) (wb : Fin nb → ℝ) (Nb : Fin nb → Fin n → ℝ) (hNb : ∀ s, ∑ a, Nb s a = 1) (load : Fin nb → Vec ℝ c)
    (i : Fin c) : ∑ a, Loads.residual w N B (fun q => inertia (density q) (acc q) + bodyForce (force q)) flux wb Nb load a i =
      (∑ q, w q * (density q * acc q i)) - (∑ q, w q * force q i) + ∑ s, wb s * load s i := by
  unfold Loads.residual
  rw [Finset.sum_add_distrib, Finset.sum_comm, Finset.sum_comm (f := fun a s => wb s * (Nb s a * load s i)), ← Finset.sum_sub_distrib]
  congr 1
  · refine Finset.sum_congr rfl fun q _ => ?_
    rw [← Finset.mul_sum, Finset.sum_add_distrib, ← Finset.sum_mul, hN, Finset.sum_comm]
    have : ∑ j, ∑ a, B q a j * flux q i j = 0 := Finset.sum_eq_zero fun j _ => by rw [← Finset.sum_mul, hB, zero_mul]
    rw [this]
    simp only [inertia, bodyForce, smulV_eq, Pi.add_apply, Pi.smul_apply, smul_eq_mul]
    ring
  · refine Finset.sum_congr rfl fun s _ => ?_
    rw [← Finset.mul_sum, ← Finset.sum_mul, hNb, one_mul]

/-- **C65, balance of heat**: the residuals of heat transfer add up to stored heat minus sources plus outward fluxes. -/
theorem C65_heat_balance {n d nq nb : ℕ} (w : Fin nq → ℝ) (N : Fin nq → Fin n → ℝ) (B : Fin nq → Fin n → Fin d → ℝ) (hN : ∀ q, ∑ a, N q a = 1) (hB : ∀ q j, ∑ a, B q a j = 0)
    (capacity rate source : Fin nq → ℝ) (flux : Fin nq → Mat ℝ 1 d) (wb : Fin nb → ℝ) (Nb : Fin nb → Fin n → ℝ) (hNb : ∀ s, ∑ a, Nb s a = 1) (load : Fin nb → Vec ℝ 1) :
    ∑ a, Loads.residual w N B (fun q _ => heating (capacity q) (rate q) + heatSource (source q)) flux wb Nb load a 0 =
      (∑ q, w q * (capacity q * rate q)) - (∑ q, w q * source q) + ∑ s, wb s * load s 0 := by
  unfold Loads.residual
  rw [Finset.sum_add_distrib, Finset.sum_comm, Finset.sum_comm (f := fun a s => wb s * (Nb s a * load s 0)), ← Finset.sum_sub_distrib]
  congr 1
  · refine Finset.sum_congr rfl fun q _ => ?_
    rw [← Finset.mul_sum, Finset.sum_add_distrib, ← Finset.sum_mul, hN, Finset.sum_comm]
    have : ∑ j, ∑ a, B q a j * flux q 0 j = 0 := Finset.sum_eq_zero fun j _ => by rw [← Finset.sum_mul, hB, zero_mul]
    rw [this]
    simp only [heating, heatSource]
    ring
  · refine Finset.sum_congr rfl fun s _ => ?_
    rw [← Finset.mul_sum, ← Finset.sum_mul, hNb, one_mul]

/-! ## Examples -/

def flat : Mat ℝ 3 2 := !![1, 0; 0, 1; 0, 0]

theorem flat_ne : crossCols flat ≠ 0 := by
  intro h
  have := congrFun h 2
  simp [crossCols, flat] at this

/-- A flat face pushed by pressure two. -/
example : pressureAt3 true (fun _ _ => 2) 0 (0, flat) (0, 0) (0, flat) = some ((2 : ℝ) • crossCols (flat + 0 + flat)) :=
  (C65_pressure3 true (fun _ _ => 2) 0 (0, flat) (0, 0) (0, flat)).1 flat_ne (by simpa using flat_ne)

/-- The boundary of a tetrahedron is closed. -/
def tetrahedron : List (Fin 4 × Fin 4 × Fin 4) := [(1, 2, 3), (0, 3, 2), (0, 1, 3), (0, 2, 1)]

example : Closed tetrahedron := by
  intro w hw
  simp only [tetrahedron, List.map_cons, List.map_nil, List.sum_cons, List.sum_nil]
  rw [hw 0 3, hw 0 1, hw 0 2, hw 2 3, hw 1 3, hw 1 2]
  ring

/-- A rule for linear triangles: one point with weight one half. -/
example : ∀ k : Fin 3, ∑ q : Fin 1, (fun _ => (1 / 2 : ℝ)) q * (fun _ _ => (1 / 3 : ℝ) : Fin 1 → Fin 3 → ℝ) q k = 1 / 6 := by
  intro k
  simp
  norm_num

example : (1 + (1 : Mat ℝ 3 3)).det ≠ 0 := by
  rw [show (1 : Mat ℝ 3 3) + 1 = (2 : ℝ) • 1 by rw [two_smul], Matrix.det_smul]
  simp

/-- A linear bar with one quadrature point: its shape functions add up to one and their gradients to zero. -/
example : (∀ q : Fin 1, ∑ a : Fin 2, (fun _ _ => (1 / 2 : ℝ) : Fin 1 → Fin 2 → ℝ) q a = 1) ∧
    ∀ (q : Fin 1) (j : Fin 1), ∑ a : Fin 2, (fun _ a _ => ![(-1 : ℝ), 1] a : Fin 1 → Fin 2 → Fin 1 → ℝ) q a j = 0 := by
  constructor
  · intro q
    simp
  · intro q j
    simp

end Serac.C65
