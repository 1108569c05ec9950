import Verif.Model.NodalBasis
import Verif.Proofs.PolyDegree
import Mathlib.Analysis.Calculus.Deriv.Mul
import Mathlib.Analysis.Calculus.Deriv.Add
import Mathlib.Algebra.BigOperators.Fin
import Mathlib.Tactic.FieldSimp
import Mathlib.Tactic.FinCases
import Mathlib.Tactic.IntervalCases
import Mathlib.Tactic.LinearCombination
/-!
# Simplex shape functions: helper lemmas
-/

set_option linter.unusedVariables false

noncomputable section
namespace Serac.Nodal

/-- Differentiate an expression built from `+ - * / const` and leave the equation between the computed and the claimed derivative. -/
macro "hd" : tactic =>
  `(tactic| (apply HasDerivAt.congr_deriv; (repeat' first
    | exact hasDerivAt_const _ _ | exact hasDerivAt_id' _ | apply HasDerivAt.fun_add | apply HasDerivAt.fun_sub
    | apply HasDerivAt.fun_mul | apply HasDerivAt.fun_neg | apply HasDerivAt.div_const)))

/-- Bound the degree of an expression built from `+ - * / const`. -/
macro "pd" : tactic =>
  `(tactic| ((apply polyDeg_mono) <;> (repeat' first
    | exact const_mem _ | exact coord_mem _ | apply add_mem | apply sub_mem | apply mul_mem | apply neg_mem | apply div_const_mem) <;> try decide))

/-- Nodes of the quadratic and cubic simplices, in the order of the tables: coordinates on the reference triangle. -/
def tri1Node : Fin 3 → Fin 2 → ℝ := ![![0, 0], ![1, 0], ![0, 1]]
def tri2Node : Fin 6 → Fin 2 → ℝ := ![![0, 0], ![1 / 2, 0], ![1, 0], ![0, 1 / 2], ![1 / 2, 1 / 2], ![0, 1]]
/-- `a`, `b` are the interior Gauss-Lobatto points of an edge. -/
def tri3Node (a b : ℝ) : Fin 10 → Fin 2 → ℝ :=
  ![![0, 0], ![a, 0], ![b, 0], ![1, 0], ![0, a], ![1 / 3, 1 / 3], ![b, a], ![0, b], ![a, b], ![0, 1]]
def tet1Node : Fin 4 → Fin 3 → ℝ := ![![0, 0, 0], ![1, 0, 0], ![0, 1, 0], ![0, 0, 1]]
def tet2Node : Fin 10 → Fin 3 → ℝ :=
  ![![0, 0, 0], ![1 / 2, 0, 0], ![1, 0, 0], ![0, 1 / 2, 0], ![1 / 2, 1 / 2, 0], ![0, 1, 0], ![0, 0, 1 / 2], ![1 / 2, 0, 1 / 2],
    ![0, 1 / 2, 1 / 2], ![0, 0, 1]]
def tet3Node (a b : ℝ) : Fin 20 → Fin 3 → ℝ :=
  ![![0, 0, 0], ![a, 0, 0], ![b, 0, 0], ![1, 0, 0], ![0, a, 0], ![1 / 3, 1 / 3, 0], ![b, a, 0], ![0, b, 0], ![a, b, 0], ![0, 1, 0],
    ![0, 0, a], ![1 / 3, 0, 1 / 3], ![b, 0, a], ![0, 1 / 3, 1 / 3], ![1 / 3, 1 / 3, 1 / 3], ![0, b, a], ![0, 0, b], ![a, 0, b],
    ![0, a, b], ![0, 0, 1]]

variable {s5 : ℝ}

theorem inv_a (h : s5 ^ 2 = 5) : (-5 + s5)⁻¹ = -(5 + s5) / 20 := by
  rw [inv_eq_of_mul_eq_one_right]; linear_combination (-1 / 20) * h
theorem inv_b (h : s5 ^ 2 = 5) : (271443 + 121393 * s5)⁻¹ = (271443 - 121393 * s5) / 4 := by
  rw [inv_eq_of_mul_eq_one_right]; linear_combination (-121393 * 121393 / 4 : ℝ) * h
theorem inv_c (h : s5 ^ 2 = 5) : (5 + 3 * s5)⁻¹ = (-5 + 3 * s5) / 20 := by
  rw [inv_eq_of_mul_eq_one_right]; linear_combination (9 / 20 : ℝ) * h
theorem inv_d (h : s5 ^ 2 = 5) : (143285 + 64079 * s5)⁻¹ = (143285 - 64079 * s5) / 20 := by
  rw [inv_eq_of_mul_eq_one_right]; linear_combination (-64079 * 64079 / 20 : ℝ) * h

theorem p3 (h : s5 ^ 2 = 5) : s5 ^ 3 = 5 * s5 := by rw [pow_succ, h]
theorem p4 (h : s5 ^ 2 = 5) : s5 ^ 4 = 25 := by rw [show s5 ^ 4 = (s5 ^ 2) ^ 2 by ring, h]; norm_num

/-- Close an equation that holds modulo `s5 ^ 2 = 5`. -/
macro "s5ring" h:ident : tactic =>
  `(tactic| first
    | ring1
    | (ring_nf; simp only [$h:ident, p3 $h, p4 $h]; ring1)
    | (ring_nf; simp only [$h:ident, p3 $h, p4 $h]; done))

/-! The entries with an irrational denominator, rewritten. -/

theorem tri3_7 (h : s5 ^ 2 = 5) (x y : ℝ) : tri3 s5 x y 7 = -5 * y * (-1 + x + y) * (1 - s5 + (-3 + s5) * x + 2 * s5 * y) / 2 := by
  have e : tri3 s5 x y 7 = (5 * y * (-1 + x + y) * (5 - 3 * s5 + 2 * (-5 + 2 * s5) * x + 5 * (-1 + s5) * y)) / (-5 + s5) := rfl
  rw [e, div_eq_mul_inv, inv_a h]; s5ring h
theorem tet3_10 (h : s5 ^ 2 = 5) (x y z : ℝ) : tet3 s5 x y z 10 =
    5 * z * (-1 + x + y + z) * (-1 - s5 + (3 + s5) * x + (3 + s5) * y + 2 * s5 * z) / 2 := by
  have e : tet3 s5 x y z 10 = (5 * z * (-1 + x + y + z) * (-439204 - 196418 * s5 + (710647 + 317811 * s5) * x +
    (710647 + 317811 * s5) * y + 606965 * z + 271443 * s5 * z)) / (271443 + 121393 * s5) := rfl
  rw [e, div_eq_mul_inv, inv_b h]; s5ring h
theorem tet3_12 (h : s5 ^ 2 = 5) (x y z : ℝ) : tet3 s5 x y z 12 = 5 * x * z * (-2 + (3 + s5) * x - (-3 + s5) * z) / 2 := by
  have e : tet3 s5 x y z 12 = (5 * x * z * (-5 - 3 * s5 + (15 + 7 * s5) * x + 2 * s5 * z)) / (5 + 3 * s5) := rfl
  rw [e, div_eq_mul_inv, inv_c h]; s5ring h
theorem tet3_15 (h : s5 ^ 2 = 5) (x y z : ℝ) : tet3 s5 x y z 15 = 5 * y * z * (-2 + (3 + s5) * y - (-3 + s5) * z) / 2 := by
  have e : tet3 s5 x y z 15 = (5 * y * z * (-5 - 3 * s5 + (15 + 7 * s5) * y + 2 * s5 * z)) / (5 + 3 * s5) := rfl
  rw [e, div_eq_mul_inv, inv_c h]; s5ring h
theorem tet3_16 (h : s5 ^ 2 = 5) (x y z : ℝ) : tet3 s5 x y z 16 =
    -5 * z * (-1 + x + y + z) * (1 - s5 + (-3 + s5) * x + (-3 + s5) * y + 2 * s5 * z) / 2 := by
  have e : tet3 s5 x y z 16 = (5 * z * (-1 + x + y + z) * (88555 + 39603 * s5 + (54730 + 24476 * s5) * x +
    (54730 + 24476 * s5) * y - 5 * (64079 + 28657 * s5) * z)) / (143285 + 64079 * s5) := rfl
  rw [e, div_eq_mul_inv, inv_d h]; s5ring h

private theorem tri1_delta0 (_h : s5 ^ 2 = 5) (j : Fin 3) : tri1 s5 (tri1Node j 0) (tri1Node j 1) 0 = if (0 : Fin 3) = j then 1 else 0 := by
  fin_cases j
  · show 1 - 0 - 0 = (1 : ℝ)
    ring1
  · show 1 - 1 - 0 = (0 : ℝ)
    ring1
  · show 1 - 0 - 1 = (0 : ℝ)
    ring1

private theorem tri1_grad0 (x y : ℝ) :
    HasDerivAt (fun t => tri1 s5 t y 0) (tri1Grad s5 x y 0 0) x ∧
      HasDerivAt (fun t => tri1 s5 x t 0) (tri1Grad s5 x y 0 1) y := by
  refine ⟨?_, ?_⟩
  · show HasDerivAt (fun t : ℝ => 1 - t - y) (-1) x
    hd; ring1
  · show HasDerivAt (fun t : ℝ => 1 - x - t) (-1) y
    hd; ring1

private theorem tri1_delta1 (_h : s5 ^ 2 = 5) (j : Fin 3) : tri1 s5 (tri1Node j 0) (tri1Node j 1) 1 = if (1 : Fin 3) = j then 1 else 0 := by
  fin_cases j
  · show 0 = (0 : ℝ)
    ring1
  · show 1 = (1 : ℝ)
    ring1
  · show 0 = (0 : ℝ)
    ring1

private theorem tri1_grad1 (x y : ℝ) :
    HasDerivAt (fun t => tri1 s5 t y 1) (tri1Grad s5 x y 1 0) x ∧
      HasDerivAt (fun t => tri1 s5 x t 1) (tri1Grad s5 x y 1 1) y := by
  refine ⟨?_, ?_⟩
  · show HasDerivAt (fun t : ℝ => t) (1) x
    hd; ring1
  · show HasDerivAt (fun t : ℝ => x) (0) y
    hd; ring1

private theorem tri1_delta2 (_h : s5 ^ 2 = 5) (j : Fin 3) : tri1 s5 (tri1Node j 0) (tri1Node j 1) 2 = if (2 : Fin 3) = j then 1 else 0 := by
  fin_cases j
  · show 0 = (0 : ℝ)
    ring1
  · show 0 = (0 : ℝ)
    ring1
  · show 1 = (1 : ℝ)
    ring1

private theorem tri1_grad2 (x y : ℝ) :
    HasDerivAt (fun t => tri1 s5 t y 2) (tri1Grad s5 x y 2 0) x ∧
      HasDerivAt (fun t => tri1 s5 x t 2) (tri1Grad s5 x y 2 1) y := by
  refine ⟨?_, ?_⟩
  · show HasDerivAt (fun t : ℝ => y) (0) x
    hd; ring1
  · show HasDerivAt (fun t : ℝ => t) (1) y
    hd; ring1

theorem tri1_delta (h : s5 ^ 2 = 5) (i j : Fin 3) : tri1 s5 (tri1Node j 0) (tri1Node j 1) i = if i = j then 1 else 0 := by
  fin_cases i
  · exact tri1_delta0 h j
  · exact tri1_delta1 h j
  · exact tri1_delta2 h j

theorem tri1_mem (i : Fin 3) : (fun X : Fin 2 → ℝ => tri1 s5 (X 0) (X 1) i) ∈ polyDeg 2 1 := by
  fin_cases i
  · show (fun X : Fin 2 → ℝ => 1 - X 0 - X 1) ∈ _
    pd
  · show (fun X : Fin 2 → ℝ => X 0) ∈ _
    pd
  · show (fun X : Fin 2 → ℝ => X 1) ∈ _
    pd

theorem tri1_grad (x y : ℝ) (i : Fin 3) :
    HasDerivAt (fun t => tri1 s5 t y i) (tri1Grad s5 x y i 0) x ∧
      HasDerivAt (fun t => tri1 s5 x t i) (tri1Grad s5 x y i 1) y := by
  fin_cases i
  · exact tri1_grad0 x y
  · exact tri1_grad1 x y
  · exact tri1_grad2 x y

private theorem tri2_delta0 (_h : s5 ^ 2 = 5) (j : Fin 6) : tri2 s5 (tri2Node j 0) (tri2Node j 1) 0 = if (0 : Fin 6) = j then 1 else 0 := by
  fin_cases j
  · show (-1 + 0 + 0) * (-1 + 2 * 0 + 2 * 0) = (1 : ℝ)
    ring1
  · show (-1 + (1 / 2) + 0) * (-1 + 2 * (1 / 2) + 2 * 0) = (0 : ℝ)
    ring1
  · show (-1 + 1 + 0) * (-1 + 2 * 1 + 2 * 0) = (0 : ℝ)
    ring1
  · show (-1 + 0 + (1 / 2)) * (-1 + 2 * 0 + 2 * (1 / 2)) = (0 : ℝ)
    ring1
  · show (-1 + (1 / 2) + (1 / 2)) * (-1 + 2 * (1 / 2) + 2 * (1 / 2)) = (0 : ℝ)
    ring1
  · show (-1 + 0 + 1) * (-1 + 2 * 0 + 2 * 1) = (0 : ℝ)
    ring1

private theorem tri2_grad0 (x y : ℝ) :
    HasDerivAt (fun t => tri2 s5 t y 0) (tri2Grad s5 x y 0 0) x ∧
      HasDerivAt (fun t => tri2 s5 x t 0) (tri2Grad s5 x y 0 1) y := by
  refine ⟨?_, ?_⟩
  · show HasDerivAt (fun t : ℝ => (-1 + t + y) * (-1 + 2 * t + 2 * y)) (-3 + 4 * x + 4 * y) x
    hd; ring1
  · show HasDerivAt (fun t : ℝ => (-1 + x + t) * (-1 + 2 * x + 2 * t)) (-3 + 4 * x + 4 * y) y
    hd; ring1

private theorem tri2_delta1 (_h : s5 ^ 2 = 5) (j : Fin 6) : tri2 s5 (tri2Node j 0) (tri2Node j 1) 1 = if (1 : Fin 6) = j then 1 else 0 := by
  fin_cases j
  · show -4 * 0 * (-1 + 0 + 0) = (0 : ℝ)
    ring1
  · show -4 * (1 / 2) * (-1 + (1 / 2) + 0) = (1 : ℝ)
    ring1
  · show -4 * 1 * (-1 + 1 + 0) = (0 : ℝ)
    ring1
  · show -4 * 0 * (-1 + 0 + (1 / 2)) = (0 : ℝ)
    ring1
  · show -4 * (1 / 2) * (-1 + (1 / 2) + (1 / 2)) = (0 : ℝ)
    ring1
  · show -4 * 0 * (-1 + 0 + 1) = (0 : ℝ)
    ring1

private theorem tri2_grad1 (x y : ℝ) :
    HasDerivAt (fun t => tri2 s5 t y 1) (tri2Grad s5 x y 1 0) x ∧
      HasDerivAt (fun t => tri2 s5 x t 1) (tri2Grad s5 x y 1 1) y := by
  refine ⟨?_, ?_⟩
  · show HasDerivAt (fun t : ℝ => -4 * t * (-1 + t + y)) (-4 * (-1 + 2 * x + y)) x
    hd; ring1
  · show HasDerivAt (fun t : ℝ => -4 * x * (-1 + x + t)) (-4 * x) y
    hd; ring1

private theorem tri2_delta2 (_h : s5 ^ 2 = 5) (j : Fin 6) : tri2 s5 (tri2Node j 0) (tri2Node j 1) 2 = if (2 : Fin 6) = j then 1 else 0 := by
  fin_cases j
  · show 0 * (-1 + 2 * 0) = (0 : ℝ)
    ring1
  · show (1 / 2) * (-1 + 2 * (1 / 2)) = (0 : ℝ)
    ring1
  · show 1 * (-1 + 2 * 1) = (1 : ℝ)
    ring1
  · show 0 * (-1 + 2 * 0) = (0 : ℝ)
    ring1
  · show (1 / 2) * (-1 + 2 * (1 / 2)) = (0 : ℝ)
    ring1
  · show 0 * (-1 + 2 * 0) = (0 : ℝ)
    ring1

private theorem tri2_grad2 (x y : ℝ) :
    HasDerivAt (fun t => tri2 s5 t y 2) (tri2Grad s5 x y 2 0) x ∧
      HasDerivAt (fun t => tri2 s5 x t 2) (tri2Grad s5 x y 2 1) y := by
  refine ⟨?_, ?_⟩
  · show HasDerivAt (fun t : ℝ => t * (-1 + 2 * t)) (-1 + 4 * x) x
    hd; ring1
  · show HasDerivAt (fun t : ℝ => x * (-1 + 2 * x)) (0) y
    hd; ring1

private theorem tri2_delta3 (_h : s5 ^ 2 = 5) (j : Fin 6) : tri2 s5 (tri2Node j 0) (tri2Node j 1) 3 = if (3 : Fin 6) = j then 1 else 0 := by
  fin_cases j
  · show -4 * 0 * (-1 + 0 + 0) = (0 : ℝ)
    ring1
  · show -4 * 0 * (-1 + (1 / 2) + 0) = (0 : ℝ)
    ring1
  · show -4 * 0 * (-1 + 1 + 0) = (0 : ℝ)
    ring1
  · show -4 * (1 / 2) * (-1 + 0 + (1 / 2)) = (1 : ℝ)
    ring1
  · show -4 * (1 / 2) * (-1 + (1 / 2) + (1 / 2)) = (0 : ℝ)
    ring1
  · show -4 * 1 * (-1 + 0 + 1) = (0 : ℝ)
    ring1

private theorem tri2_grad3 (x y : ℝ) :
    HasDerivAt (fun t => tri2 s5 t y 3) (tri2Grad s5 x y 3 0) x ∧
      HasDerivAt (fun t => tri2 s5 x t 3) (tri2Grad s5 x y 3 1) y := by
  refine ⟨?_, ?_⟩
  · show HasDerivAt (fun t : ℝ => -4 * y * (-1 + t + y)) (-4 * y) x
    hd; ring1
  · show HasDerivAt (fun t : ℝ => -4 * t * (-1 + x + t)) (-4 * (-1 + x + 2 * y)) y
    hd; ring1

private theorem tri2_delta4 (_h : s5 ^ 2 = 5) (j : Fin 6) : tri2 s5 (tri2Node j 0) (tri2Node j 1) 4 = if (4 : Fin 6) = j then 1 else 0 := by
  fin_cases j
  · show 4 * 0 * 0 = (0 : ℝ)
    ring1
  · show 4 * (1 / 2) * 0 = (0 : ℝ)
    ring1
  · show 4 * 1 * 0 = (0 : ℝ)
    ring1
  · show 4 * 0 * (1 / 2) = (0 : ℝ)
    ring1
  · show 4 * (1 / 2) * (1 / 2) = (1 : ℝ)
    ring1
  · show 4 * 0 * 1 = (0 : ℝ)
    ring1

private theorem tri2_grad4 (x y : ℝ) :
    HasDerivAt (fun t => tri2 s5 t y 4) (tri2Grad s5 x y 4 0) x ∧
      HasDerivAt (fun t => tri2 s5 x t 4) (tri2Grad s5 x y 4 1) y := by
  refine ⟨?_, ?_⟩
  · show HasDerivAt (fun t : ℝ => 4 * t * y) (4 * y) x
    hd; ring1
  · show HasDerivAt (fun t : ℝ => 4 * x * t) (4 * x) y
    hd; ring1

private theorem tri2_delta5 (_h : s5 ^ 2 = 5) (j : Fin 6) : tri2 s5 (tri2Node j 0) (tri2Node j 1) 5 = if (5 : Fin 6) = j then 1 else 0 := by
  fin_cases j
  · show 0 * (-1 + 2 * 0) = (0 : ℝ)
    ring1
  · show 0 * (-1 + 2 * 0) = (0 : ℝ)
    ring1
  · show 0 * (-1 + 2 * 0) = (0 : ℝ)
    ring1
  · show (1 / 2) * (-1 + 2 * (1 / 2)) = (0 : ℝ)
    ring1
  · show (1 / 2) * (-1 + 2 * (1 / 2)) = (0 : ℝ)
    ring1
  · show 1 * (-1 + 2 * 1) = (1 : ℝ)
    ring1

private theorem tri2_grad5 (x y : ℝ) :
    HasDerivAt (fun t => tri2 s5 t y 5) (tri2Grad s5 x y 5 0) x ∧
      HasDerivAt (fun t => tri2 s5 x t 5) (tri2Grad s5 x y 5 1) y := by
  refine ⟨?_, ?_⟩
  · show HasDerivAt (fun t : ℝ => y * (-1 + 2 * y)) (0) x
    hd; ring1
  · show HasDerivAt (fun t : ℝ => t * (-1 + 2 * t)) (-1 + 4 * y) y
    hd; ring1

theorem tri2_delta (h : s5 ^ 2 = 5) (i j : Fin 6) : tri2 s5 (tri2Node j 0) (tri2Node j 1) i = if i = j then 1 else 0 := by
  fin_cases i
  · exact tri2_delta0 h j
  · exact tri2_delta1 h j
  · exact tri2_delta2 h j
  · exact tri2_delta3 h j
  · exact tri2_delta4 h j
  · exact tri2_delta5 h j

theorem tri2_mem (i : Fin 6) : (fun X : Fin 2 → ℝ => tri2 s5 (X 0) (X 1) i) ∈ polyDeg 2 2 := by
  fin_cases i
  · show (fun X : Fin 2 → ℝ => (-1 + X 0 + X 1) * (-1 + 2 * X 0 + 2 * X 1)) ∈ _
    pd
  · show (fun X : Fin 2 → ℝ => -4 * X 0 * (-1 + X 0 + X 1)) ∈ _
    pd
  · show (fun X : Fin 2 → ℝ => X 0 * (-1 + 2 * X 0)) ∈ _
    pd
  · show (fun X : Fin 2 → ℝ => -4 * X 1 * (-1 + X 0 + X 1)) ∈ _
    pd
  · show (fun X : Fin 2 → ℝ => 4 * X 0 * X 1) ∈ _
    pd
  · show (fun X : Fin 2 → ℝ => X 1 * (-1 + 2 * X 1)) ∈ _
    pd

theorem tri2_grad (x y : ℝ) (i : Fin 6) :
    HasDerivAt (fun t => tri2 s5 t y i) (tri2Grad s5 x y i 0) x ∧
      HasDerivAt (fun t => tri2 s5 x t i) (tri2Grad s5 x y i 1) y := by
  fin_cases i
  · exact tri2_grad0 x y
  · exact tri2_grad1 x y
  · exact tri2_grad2 x y
  · exact tri2_grad3 x y
  · exact tri2_grad4 x y
  · exact tri2_grad5 x y

private theorem tri3_delta0 (h : s5 ^ 2 = 5) (j : Fin 10) : tri3 s5 (tri3Node ((5 - s5) / 10) ((5 + s5) / 10) j 0) (tri3Node ((5 - s5) / 10) ((5 + s5) / 10) j 1) 0 = if (0 : Fin 10) = j then 1 else 0 := by
  fin_cases j
  · show -((-1 + 0 + 0) * (1 + 5 * 0 * 0 + 5 * (-1 + 0) * 0 + 0 * (-5 + 11 * 0))) = (1 : ℝ)
    ring1
  · show -((-1 + ((5 - s5) / 10) + 0) * (1 + 5 * ((5 - s5) / 10) * ((5 - s5) / 10) + 5 * (-1 + 0) * 0 + ((5 - s5) / 10) * (-5 + 11 * 0))) = (0 : ℝ)
    linear_combination ((1/40) + (1/200) * s5 ^ 1) * h
  · show -((-1 + ((5 + s5) / 10) + 0) * (1 + 5 * ((5 + s5) / 10) * ((5 + s5) / 10) + 5 * (-1 + 0) * 0 + ((5 + s5) / 10) * (-5 + 11 * 0))) = (0 : ℝ)
    linear_combination ((1/40) + (-1/200) * s5 ^ 1) * h
  · show -((-1 + 1 + 0) * (1 + 5 * 1 * 1 + 5 * (-1 + 0) * 0 + 1 * (-5 + 11 * 0))) = (0 : ℝ)
    ring1
  · show -((-1 + 0 + ((5 - s5) / 10)) * (1 + 5 * 0 * 0 + 5 * (-1 + ((5 - s5) / 10)) * ((5 - s5) / 10) + 0 * (-5 + 11 * ((5 - s5) / 10)))) = (0 : ℝ)
    linear_combination ((1/40) + (1/200) * s5 ^ 1) * h
  · show -((-1 + (1 / 3) + (1 / 3)) * (1 + 5 * (1 / 3) * (1 / 3) + 5 * (-1 + (1 / 3)) * (1 / 3) + (1 / 3) * (-5 + 11 * (1 / 3)))) = (0 : ℝ)
    ring1
  · show -((-1 + ((5 + s5) / 10) + ((5 - s5) / 10)) * (1 + 5 * ((5 + s5) / 10) * ((5 + s5) / 10) + 5 * (-1 + ((5 - s5) / 10)) * ((5 - s5) / 10) + ((5 + s5) / 10) * (-5 + 11 * ((5 - s5) / 10)))) = (0 : ℝ)
    ring1
  · show -((-1 + 0 + ((5 + s5) / 10)) * (1 + 5 * 0 * 0 + 5 * (-1 + ((5 + s5) / 10)) * ((5 + s5) / 10) + 0 * (-5 + 11 * ((5 + s5) / 10)))) = (0 : ℝ)
    linear_combination ((1/40) + (-1/200) * s5 ^ 1) * h
  · show -((-1 + ((5 - s5) / 10) + ((5 + s5) / 10)) * (1 + 5 * ((5 - s5) / 10) * ((5 - s5) / 10) + 5 * (-1 + ((5 + s5) / 10)) * ((5 + s5) / 10) + ((5 - s5) / 10) * (-5 + 11 * ((5 + s5) / 10)))) = (0 : ℝ)
    ring1
  · show -((-1 + 0 + 1) * (1 + 5 * 0 * 0 + 5 * (-1 + 1) * 1 + 0 * (-5 + 11 * 1))) = (0 : ℝ)
    ring1

private theorem tri3_grad0 (x y : ℝ) :
    HasDerivAt (fun t => tri3 s5 t y 0) (tri3Grad s5 x y 0 0) x ∧
      HasDerivAt (fun t => tri3 s5 x t 0) (tri3Grad s5 x y 0 1) y := by
  refine ⟨?_, ?_⟩
  · show HasDerivAt (fun t : ℝ => -((-1 + t + y) * (1 + 5 * t * t + 5 * (-1 + y) * y + t * (-5 + 11 * y)))) (-6 - 15 * x * x + 4 * x * (5 - 8 * y) + (21 - 16 * y) * y) x
    hd; ring1
  · show HasDerivAt (fun t : ℝ => -((-1 + x + t) * (1 + 5 * x * x + 5 * (-1 + t) * t + x * (-5 + 11 * t)))) (-6 - 16 * x * x + x * (21 - 32 * y) + 5 * (4 - 3 * y) * y) y
    hd; ring1

private theorem tri3_delta1 (h : s5 ^ 2 = 5) (j : Fin 10) : tri3 s5 (tri3Node ((5 - s5) / 10) ((5 + s5) / 10) j 0) (tri3Node ((5 - s5) / 10) ((5 + s5) / 10) j 1) 1 = if (1 : Fin 10) = j then 1 else 0 := by
  fin_cases j
  · show (5 * 0 * (-1 + 0 + 0) * (-1 - s5 + 2 * s5 * 0 + (3 + s5) * 0)) / 2 = (0 : ℝ)
    ring1
  · show (5 * ((5 - s5) / 10) * (-1 + ((5 - s5) / 10) + 0) * (-1 - s5 + 2 * s5 * ((5 - s5) / 10) + (3 + s5) * 0)) / 2 = (1 : ℝ)
    linear_combination ((3/40) + (-1/200) * s5 ^ 2) * h
  · show (5 * ((5 + s5) / 10) * (-1 + ((5 + s5) / 10) + 0) * (-1 - s5 + 2 * s5 * ((5 + s5) / 10) + (3 + s5) * 0)) / 2 = (0 : ℝ)
    linear_combination ((-1/8) + (1/200) * s5 ^ 2) * h
  · show (5 * 1 * (-1 + 1 + 0) * (-1 - s5 + 2 * s5 * 1 + (3 + s5) * 0)) / 2 = (0 : ℝ)
    ring1
  · show (5 * 0 * (-1 + 0 + ((5 - s5) / 10)) * (-1 - s5 + 2 * s5 * 0 + (3 + s5) * ((5 - s5) / 10))) / 2 = (0 : ℝ)
    ring1
  · show (5 * (1 / 3) * (-1 + (1 / 3) + (1 / 3)) * (-1 - s5 + 2 * s5 * (1 / 3) + (3 + s5) * (1 / 3))) / 2 = (0 : ℝ)
    ring1
  · show (5 * ((5 + s5) / 10) * (-1 + ((5 + s5) / 10) + ((5 - s5) / 10)) * (-1 - s5 + 2 * s5 * ((5 + s5) / 10) + (3 + s5) * ((5 - s5) / 10))) / 2 = (0 : ℝ)
    ring1
  · show (5 * 0 * (-1 + 0 + ((5 + s5) / 10)) * (-1 - s5 + 2 * s5 * 0 + (3 + s5) * ((5 + s5) / 10))) / 2 = (0 : ℝ)
    ring1
  · show (5 * ((5 - s5) / 10) * (-1 + ((5 - s5) / 10) + ((5 + s5) / 10)) * (-1 - s5 + 2 * s5 * ((5 - s5) / 10) + (3 + s5) * ((5 + s5) / 10))) / 2 = (0 : ℝ)
    ring1
  · show (5 * 0 * (-1 + 0 + 1) * (-1 - s5 + 2 * s5 * 0 + (3 + s5) * 1)) / 2 = (0 : ℝ)
    ring1

private theorem tri3_grad1 (x y : ℝ) :
    HasDerivAt (fun t => tri3 s5 t y 1) (tri3Grad s5 x y 1 0) x ∧
      HasDerivAt (fun t => tri3 s5 x t 1) (tri3Grad s5 x y 1 1) y := by
  refine ⟨?_, ?_⟩
  · show HasDerivAt (fun t : ℝ => (5 * t * (-1 + t + y) * (-1 - s5 + 2 * s5 * t + (3 + s5) * y)) / 2) ((5 * (6 * s5 * x * x + x * (-2 - 6 * s5 + 6 * (1 + s5) * y) + (-1 + y) * (-1 - s5 + (3 + s5) * y))) / 2) x
    hd; ring1
  · show HasDerivAt (fun t : ℝ => (5 * x * (-1 + x + t) * (-1 - s5 + 2 * s5 * x + (3 + s5) * t)) / 2) ((5 * x * (-2 * (2 + s5) + 3 * (1 + s5) * x + 2 * (3 + s5) * y)) / 2) y
    hd; ring1

private theorem tri3_delta2 (h : s5 ^ 2 = 5) (j : Fin 10) : tri3 s5 (tri3Node ((5 - s5) / 10) ((5 + s5) / 10) j 0) (tri3Node ((5 - s5) / 10) ((5 + s5) / 10) j 1) 2 = if (2 : Fin 10) = j then 1 else 0 := by
  fin_cases j
  · show (-5 * 0 * (-1 + 0 + 0) * (1 - s5 + 2 * s5 * 0 + (-3 + s5) * 0)) / 2 = (0 : ℝ)
    ring1
  · show (-5 * ((5 - s5) / 10) * (-1 + ((5 - s5) / 10) + 0) * (1 - s5 + 2 * s5 * ((5 - s5) / 10) + (-3 + s5) * 0)) / 2 = (0 : ℝ)
    linear_combination ((-1/8) + (1/200) * s5 ^ 2) * h
  · show (-5 * ((5 + s5) / 10) * (-1 + ((5 + s5) / 10) + 0) * (1 - s5 + 2 * s5 * ((5 + s5) / 10) + (-3 + s5) * 0)) / 2 = (1 : ℝ)
    linear_combination ((3/40) + (-1/200) * s5 ^ 2) * h
  · show (-5 * 1 * (-1 + 1 + 0) * (1 - s5 + 2 * s5 * 1 + (-3 + s5) * 0)) / 2 = (0 : ℝ)
    ring1
  · show (-5 * 0 * (-1 + 0 + ((5 - s5) / 10)) * (1 - s5 + 2 * s5 * 0 + (-3 + s5) * ((5 - s5) / 10))) / 2 = (0 : ℝ)
    ring1
  · show (-5 * (1 / 3) * (-1 + (1 / 3) + (1 / 3)) * (1 - s5 + 2 * s5 * (1 / 3) + (-3 + s5) * (1 / 3))) / 2 = (0 : ℝ)
    ring1
  · show (-5 * ((5 + s5) / 10) * (-1 + ((5 + s5) / 10) + ((5 - s5) / 10)) * (1 - s5 + 2 * s5 * ((5 + s5) / 10) + (-3 + s5) * ((5 - s5) / 10))) / 2 = (0 : ℝ)
    ring1
  · show (-5 * 0 * (-1 + 0 + ((5 + s5) / 10)) * (1 - s5 + 2 * s5 * 0 + (-3 + s5) * ((5 + s5) / 10))) / 2 = (0 : ℝ)
    ring1
  · show (-5 * ((5 - s5) / 10) * (-1 + ((5 - s5) / 10) + ((5 + s5) / 10)) * (1 - s5 + 2 * s5 * ((5 - s5) / 10) + (-3 + s5) * ((5 + s5) / 10))) / 2 = (0 : ℝ)
    ring1
  · show (-5 * 0 * (-1 + 0 + 1) * (1 - s5 + 2 * s5 * 0 + (-3 + s5) * 1)) / 2 = (0 : ℝ)
    ring1

private theorem tri3_grad2 (x y : ℝ) :
    HasDerivAt (fun t => tri3 s5 t y 2) (tri3Grad s5 x y 2 0) x ∧
      HasDerivAt (fun t => tri3 s5 x t 2) (tri3Grad s5 x y 2 1) y := by
  refine ⟨?_, ?_⟩
  · show HasDerivAt (fun t : ℝ => (-5 * t * (-1 + t + y) * (1 - s5 + 2 * s5 * t + (-3 + s5) * y)) / 2) ((-5 * (6 * s5 * x * x + (-1 + y) * (1 - s5 + (-3 + s5) * y) + x * (2 - 6 * s5 + 6 * (-1 + s5) * y))) / 2) x
    hd; ring1
  · show HasDerivAt (fun t : ℝ => (-5 * x * (-1 + x + t) * (1 - s5 + 2 * s5 * x + (-3 + s5) * t)) / 2) ((-5 * x * (4 - 2 * s5 + 3 * (-1 + s5) * x + 2 * (-3 + s5) * y)) / 2) y
    hd; ring1

private theorem tri3_delta3 (h : s5 ^ 2 = 5) (j : Fin 10) : tri3 s5 (tri3Node ((5 - s5) / 10) ((5 + s5) / 10) j 0) (tri3Node ((5 - s5) / 10) ((5 + s5) / 10) j 1) 3 = if (3 : Fin 10) = j then 1 else 0 := by
  fin_cases j
  · show 0 * (1 + 5 * 0 * 0 + 0 - 0 * 0 - 0 * (5 + 0)) = (0 : ℝ)
    ring1
  · show ((5 - s5) / 10) * (1 + 5 * ((5 - s5) / 10) * ((5 - s5) / 10) + 0 - 0 * 0 - ((5 - s5) / 10) * (5 + 0)) = (0 : ℝ)
    linear_combination ((1/40) + (-1/200) * s5 ^ 1) * h
  · show ((5 + s5) / 10) * (1 + 5 * ((5 + s5) / 10) * ((5 + s5) / 10) + 0 - 0 * 0 - ((5 + s5) / 10) * (5 + 0)) = (0 : ℝ)
    linear_combination ((1/40) + (1/200) * s5 ^ 1) * h
  · show 1 * (1 + 5 * 1 * 1 + 0 - 0 * 0 - 1 * (5 + 0)) = (1 : ℝ)
    ring1
  · show 0 * (1 + 5 * 0 * 0 + ((5 - s5) / 10) - ((5 - s5) / 10) * ((5 - s5) / 10) - 0 * (5 + ((5 - s5) / 10))) = (0 : ℝ)
    ring1
  · show (1 / 3) * (1 + 5 * (1 / 3) * (1 / 3) + (1 / 3) - (1 / 3) * (1 / 3) - (1 / 3) * (5 + (1 / 3))) = (0 : ℝ)
    ring1
  · show ((5 + s5) / 10) * (1 + 5 * ((5 + s5) / 10) * ((5 + s5) / 10) + ((5 - s5) / 10) - ((5 - s5) / 10) * ((5 - s5) / 10) - ((5 + s5) / 10) * (5 + ((5 - s5) / 10))) = (0 : ℝ)
    linear_combination ((1/40) + (1/200) * s5 ^ 1) * h
  · show 0 * (1 + 5 * 0 * 0 + ((5 + s5) / 10) - ((5 + s5) / 10) * ((5 + s5) / 10) - 0 * (5 + ((5 + s5) / 10))) = (0 : ℝ)
    ring1
  · show ((5 - s5) / 10) * (1 + 5 * ((5 - s5) / 10) * ((5 - s5) / 10) + ((5 + s5) / 10) - ((5 + s5) / 10) * ((5 + s5) / 10) - ((5 - s5) / 10) * (5 + ((5 + s5) / 10))) = (0 : ℝ)
    linear_combination ((1/40) + (-1/200) * s5 ^ 1) * h
  · show 0 * (1 + 5 * 0 * 0 + 1 - 1 * 1 - 0 * (5 + 1)) = (0 : ℝ)
    ring1

private theorem tri3_grad3 (x y : ℝ) :
    HasDerivAt (fun t => tri3 s5 t y 3) (tri3Grad s5 x y 3 0) x ∧
      HasDerivAt (fun t => tri3 s5 x t 3) (tri3Grad s5 x y 3 1) y := by
  refine ⟨?_, ?_⟩
  · show HasDerivAt (fun t : ℝ => t * (1 + 5 * t * t + y - y * y - t * (5 + y))) (1 + 15 * x * x + y - y * y - 2 * x * (5 + y)) x
    hd; ring1
  · show HasDerivAt (fun t : ℝ => x * (1 + 5 * x * x + t - t * t - x * (5 + t))) (-(x * (-1 + x + 2 * y))) y
    hd; ring1

private theorem tri3_delta4 (h : s5 ^ 2 = 5) (j : Fin 10) : tri3 s5 (tri3Node ((5 - s5) / 10) ((5 + s5) / 10) j 0) (tri3Node ((5 - s5) / 10) ((5 + s5) / 10) j 1) 4 = if (4 : Fin 10) = j then 1 else 0 := by
  fin_cases j
  · show (5 * 0 * (-1 + 0 + 0) * (-1 - s5 + (3 + s5) * 0 + 2 * s5 * 0)) / 2 = (0 : ℝ)
    ring1
  · show (5 * 0 * (-1 + ((5 - s5) / 10) + 0) * (-1 - s5 + (3 + s5) * ((5 - s5) / 10) + 2 * s5 * 0)) / 2 = (0 : ℝ)
    ring1
  · show (5 * 0 * (-1 + ((5 + s5) / 10) + 0) * (-1 - s5 + (3 + s5) * ((5 + s5) / 10) + 2 * s5 * 0)) / 2 = (0 : ℝ)
    ring1
  · show (5 * 0 * (-1 + 1 + 0) * (-1 - s5 + (3 + s5) * 1 + 2 * s5 * 0)) / 2 = (0 : ℝ)
    ring1
  · show (5 * ((5 - s5) / 10) * (-1 + 0 + ((5 - s5) / 10)) * (-1 - s5 + (3 + s5) * 0 + 2 * s5 * ((5 - s5) / 10))) / 2 = (1 : ℝ)
    linear_combination ((3/40) + (-1/200) * s5 ^ 2) * h
  · show (5 * (1 / 3) * (-1 + (1 / 3) + (1 / 3)) * (-1 - s5 + (3 + s5) * (1 / 3) + 2 * s5 * (1 / 3))) / 2 = (0 : ℝ)
    ring1
  · show (5 * ((5 - s5) / 10) * (-1 + ((5 + s5) / 10) + ((5 - s5) / 10)) * (-1 - s5 + (3 + s5) * ((5 + s5) / 10) + 2 * s5 * ((5 - s5) / 10))) / 2 = (0 : ℝ)
    ring1
  · show (5 * ((5 + s5) / 10) * (-1 + 0 + ((5 + s5) / 10)) * (-1 - s5 + (3 + s5) * 0 + 2 * s5 * ((5 + s5) / 10))) / 2 = (0 : ℝ)
    linear_combination ((-1/8) + (1/200) * s5 ^ 2) * h
  · show (5 * ((5 + s5) / 10) * (-1 + ((5 - s5) / 10) + ((5 + s5) / 10)) * (-1 - s5 + (3 + s5) * ((5 - s5) / 10) + 2 * s5 * ((5 + s5) / 10))) / 2 = (0 : ℝ)
    ring1
  · show (5 * 1 * (-1 + 0 + 1) * (-1 - s5 + (3 + s5) * 0 + 2 * s5 * 1)) / 2 = (0 : ℝ)
    ring1

private theorem tri3_grad4 (x y : ℝ) :
    HasDerivAt (fun t => tri3 s5 t y 4) (tri3Grad s5 x y 4 0) x ∧
      HasDerivAt (fun t => tri3 s5 x t 4) (tri3Grad s5 x y 4 1) y := by
  refine ⟨?_, ?_⟩
  · show HasDerivAt (fun t : ℝ => (5 * y * (-1 + t + y) * (-1 - s5 + (3 + s5) * t + 2 * s5 * y)) / 2) ((5 * y * (-2 * (2 + s5) + 2 * (3 + s5) * x + 3 * (1 + s5) * y)) / 2) x
    hd; ring1
  · show HasDerivAt (fun t : ℝ => (5 * t * (-1 + x + t) * (-1 - s5 + (3 + s5) * x + 2 * s5 * t)) / 2) ((5 * (1 + s5 - 2 * (2 + s5) * x + (3 + s5) * x * x + 6 * (1 + s5) * x * y + 2 * y * (-1 - 3 * s5 + 3 * s5 * y))) / 2) y
    hd; ring1

private theorem tri3_delta5 (h : s5 ^ 2 = 5) (j : Fin 10) : tri3 s5 (tri3Node ((5 - s5) / 10) ((5 + s5) / 10) j 0) (tri3Node ((5 - s5) / 10) ((5 + s5) / 10) j 1) 5 = if (5 : Fin 10) = j then 1 else 0 := by
  fin_cases j
  · show -27 * 0 * 0 * (-1 + 0 + 0) = (0 : ℝ)
    ring1
  · show -27 * ((5 - s5) / 10) * 0 * (-1 + ((5 - s5) / 10) + 0) = (0 : ℝ)
    ring1
  · show -27 * ((5 + s5) / 10) * 0 * (-1 + ((5 + s5) / 10) + 0) = (0 : ℝ)
    ring1
  · show -27 * 1 * 0 * (-1 + 1 + 0) = (0 : ℝ)
    ring1
  · show -27 * 0 * ((5 - s5) / 10) * (-1 + 0 + ((5 - s5) / 10)) = (0 : ℝ)
    ring1
  · show -27 * (1 / 3) * (1 / 3) * (-1 + (1 / 3) + (1 / 3)) = (1 : ℝ)
    ring1
  · show -27 * ((5 + s5) / 10) * ((5 - s5) / 10) * (-1 + ((5 + s5) / 10) + ((5 - s5) / 10)) = (0 : ℝ)
    ring1
  · show -27 * 0 * ((5 + s5) / 10) * (-1 + 0 + ((5 + s5) / 10)) = (0 : ℝ)
    ring1
  · show -27 * ((5 - s5) / 10) * ((5 + s5) / 10) * (-1 + ((5 - s5) / 10) + ((5 + s5) / 10)) = (0 : ℝ)
    ring1
  · show -27 * 0 * 1 * (-1 + 0 + 1) = (0 : ℝ)
    ring1

private theorem tri3_grad5 (x y : ℝ) :
    HasDerivAt (fun t => tri3 s5 t y 5) (tri3Grad s5 x y 5 0) x ∧
      HasDerivAt (fun t => tri3 s5 x t 5) (tri3Grad s5 x y 5 1) y := by
  refine ⟨?_, ?_⟩
  · show HasDerivAt (fun t : ℝ => -27 * t * y * (-1 + t + y)) (-27 * y * (-1 + 2 * x + y)) x
    hd; ring1
  · show HasDerivAt (fun t : ℝ => -27 * x * t * (-1 + x + t)) (-27 * x * (-1 + x + 2 * y)) y
    hd; ring1

private theorem tri3_delta6 (h : s5 ^ 2 = 5) (j : Fin 10) : tri3 s5 (tri3Node ((5 - s5) / 10) ((5 + s5) / 10) j 0) (tri3Node ((5 - s5) / 10) ((5 + s5) / 10) j 1) 6 = if (6 : Fin 10) = j then 1 else 0 := by
  fin_cases j
  · show (5 * 0 * 0 * (-2 + (3 + s5) * 0 - (-3 + s5) * 0)) / 2 = (0 : ℝ)
    ring1
  · show (5 * ((5 - s5) / 10) * 0 * (-2 + (3 + s5) * ((5 - s5) / 10) - (-3 + s5) * 0)) / 2 = (0 : ℝ)
    ring1
  · show (5 * ((5 + s5) / 10) * 0 * (-2 + (3 + s5) * ((5 + s5) / 10) - (-3 + s5) * 0)) / 2 = (0 : ℝ)
    ring1
  · show (5 * 1 * 0 * (-2 + (3 + s5) * 1 - (-3 + s5) * 0)) / 2 = (0 : ℝ)
    ring1
  · show (5 * 0 * ((5 - s5) / 10) * (-2 + (3 + s5) * 0 - (-3 + s5) * ((5 - s5) / 10))) / 2 = (0 : ℝ)
    ring1
  · show (5 * (1 / 3) * (1 / 3) * (-2 + (3 + s5) * (1 / 3) - (-3 + s5) * (1 / 3))) / 2 = (0 : ℝ)
    ring1
  · show (5 * ((5 + s5) / 10) * ((5 - s5) / 10) * (-2 + (3 + s5) * ((5 + s5) / 10) - (-3 + s5) * ((5 - s5) / 10))) / 2 = (1 : ℝ)
    linear_combination ((3/40) + (-1/200) * s5 ^ 2) * h
  · show (5 * 0 * ((5 + s5) / 10) * (-2 + (3 + s5) * 0 - (-3 + s5) * ((5 + s5) / 10))) / 2 = (0 : ℝ)
    ring1
  · show (5 * ((5 - s5) / 10) * ((5 + s5) / 10) * (-2 + (3 + s5) * ((5 - s5) / 10) - (-3 + s5) * ((5 + s5) / 10))) / 2 = (0 : ℝ)
    linear_combination ((-1/8) + (1/200) * s5 ^ 2) * h
  · show (5 * 0 * 1 * (-2 + (3 + s5) * 0 - (-3 + s5) * 1)) / 2 = (0 : ℝ)
    ring1

private theorem tri3_grad6 (x y : ℝ) :
    HasDerivAt (fun t => tri3 s5 t y 6) (tri3Grad s5 x y 6 0) x ∧
      HasDerivAt (fun t => tri3 s5 x t 6) (tri3Grad s5 x y 6 1) y := by
  refine ⟨?_, ?_⟩
  · show HasDerivAt (fun t : ℝ => (5 * t * y * (-2 + (3 + s5) * t - (-3 + s5) * y)) / 2) ((-5 * y * (2 - 2 * (3 + s5) * x + (-3 + s5) * y)) / 2) x
    hd; ring1
  · show HasDerivAt (fun t : ℝ => (5 * x * t * (-2 + (3 + s5) * x - (-3 + s5) * t)) / 2) ((5 * x * (-2 + (3 + s5) * x - 2 * (-3 + s5) * y)) / 2) y
    hd; ring1

private theorem tri3_delta7 (h : s5 ^ 2 = 5) (j : Fin 10) : tri3 s5 (tri3Node ((5 - s5) / 10) ((5 + s5) / 10) j 0) (tri3Node ((5 - s5) / 10) ((5 + s5) / 10) j 1) 7 = if (7 : Fin 10) = j then 1 else 0 := by
  rw [tri3_7 h]
  fin_cases j
  · show -5 * 0 * (-1 + 0 + 0) * (1 - s5 + (-3 + s5) * 0 + 2 * s5 * 0) / 2 = (0 : ℝ)
    ring1
  · show -5 * 0 * (-1 + ((5 - s5) / 10) + 0) * (1 - s5 + (-3 + s5) * ((5 - s5) / 10) + 2 * s5 * 0) / 2 = (0 : ℝ)
    ring1
  · show -5 * 0 * (-1 + ((5 + s5) / 10) + 0) * (1 - s5 + (-3 + s5) * ((5 + s5) / 10) + 2 * s5 * 0) / 2 = (0 : ℝ)
    ring1
  · show -5 * 0 * (-1 + 1 + 0) * (1 - s5 + (-3 + s5) * 1 + 2 * s5 * 0) / 2 = (0 : ℝ)
    ring1
  · show -5 * ((5 - s5) / 10) * (-1 + 0 + ((5 - s5) / 10)) * (1 - s5 + (-3 + s5) * 0 + 2 * s5 * ((5 - s5) / 10)) / 2 = (0 : ℝ)
    linear_combination ((-1/8) + (1/200) * s5 ^ 2) * h
  · show -5 * (1 / 3) * (-1 + (1 / 3) + (1 / 3)) * (1 - s5 + (-3 + s5) * (1 / 3) + 2 * s5 * (1 / 3)) / 2 = (0 : ℝ)
    ring1
  · show -5 * ((5 - s5) / 10) * (-1 + ((5 + s5) / 10) + ((5 - s5) / 10)) * (1 - s5 + (-3 + s5) * ((5 + s5) / 10) + 2 * s5 * ((5 - s5) / 10)) / 2 = (0 : ℝ)
    ring1
  · show -5 * ((5 + s5) / 10) * (-1 + 0 + ((5 + s5) / 10)) * (1 - s5 + (-3 + s5) * 0 + 2 * s5 * ((5 + s5) / 10)) / 2 = (1 : ℝ)
    linear_combination ((3/40) + (-1/200) * s5 ^ 2) * h
  · show -5 * ((5 + s5) / 10) * (-1 + ((5 - s5) / 10) + ((5 + s5) / 10)) * (1 - s5 + (-3 + s5) * ((5 - s5) / 10) + 2 * s5 * ((5 + s5) / 10)) / 2 = (0 : ℝ)
    ring1
  · show -5 * 1 * (-1 + 0 + 1) * (1 - s5 + (-3 + s5) * 0 + 2 * s5 * 1) / 2 = (0 : ℝ)
    ring1

private theorem tri3_grad7 (h : s5 ^ 2 = 5) (x y : ℝ) :
    HasDerivAt (fun t => tri3 s5 t y 7) (tri3Grad s5 x y 7 0) x ∧
      HasDerivAt (fun t => tri3 s5 x t 7) (tri3Grad s5 x y 7 1) y := by
  simp only [tri3_7 h]
  refine ⟨?_, ?_⟩
  · show HasDerivAt (fun t : ℝ => -5 * y * (-1 + t + y) * (1 - s5 + (-3 + s5) * t + 2 * s5 * y) / 2) ((-5 * y * (4 - 2 * s5 + 2 * (-3 + s5) * x + 3 * (-1 + s5) * y)) / 2) x
    hd; ring1
  · show HasDerivAt (fun t : ℝ => -5 * t * (-1 + x + t) * (1 - s5 + (-3 + s5) * x + 2 * s5 * t) / 2) ((-5 * (-1 + s5 + (-3 + s5) * x * x + 2 * y * (1 - 3 * s5 + 3 * s5 * y) + x * (4 - 2 * s5 + 6 * (-1 + s5) * y))) / 2) y
    hd; ring1

private theorem tri3_delta8 (h : s5 ^ 2 = 5) (j : Fin 10) : tri3 s5 (tri3Node ((5 - s5) / 10) ((5 + s5) / 10) j 0) (tri3Node ((5 - s5) / 10) ((5 + s5) / 10) j 1) 8 = if (8 : Fin 10) = j then 1 else 0 := by
  fin_cases j
  · show (-5 * 0 * 0 * (2 + (-3 + s5) * 0 - (3 + s5) * 0)) / 2 = (0 : ℝ)
    ring1
  · show (-5 * ((5 - s5) / 10) * 0 * (2 + (-3 + s5) * ((5 - s5) / 10) - (3 + s5) * 0)) / 2 = (0 : ℝ)
    ring1
  · show (-5 * ((5 + s5) / 10) * 0 * (2 + (-3 + s5) * ((5 + s5) / 10) - (3 + s5) * 0)) / 2 = (0 : ℝ)
    ring1
  · show (-5 * 1 * 0 * (2 + (-3 + s5) * 1 - (3 + s5) * 0)) / 2 = (0 : ℝ)
    ring1
  · show (-5 * 0 * ((5 - s5) / 10) * (2 + (-3 + s5) * 0 - (3 + s5) * ((5 - s5) / 10))) / 2 = (0 : ℝ)
    ring1
  · show (-5 * (1 / 3) * (1 / 3) * (2 + (-3 + s5) * (1 / 3) - (3 + s5) * (1 / 3))) / 2 = (0 : ℝ)
    ring1
  · show (-5 * ((5 + s5) / 10) * ((5 - s5) / 10) * (2 + (-3 + s5) * ((5 + s5) / 10) - (3 + s5) * ((5 - s5) / 10))) / 2 = (0 : ℝ)
    linear_combination ((-1/8) + (1/200) * s5 ^ 2) * h
  · show (-5 * 0 * ((5 + s5) / 10) * (2 + (-3 + s5) * 0 - (3 + s5) * ((5 + s5) / 10))) / 2 = (0 : ℝ)
    ring1
  · show (-5 * ((5 - s5) / 10) * ((5 + s5) / 10) * (2 + (-3 + s5) * ((5 - s5) / 10) - (3 + s5) * ((5 + s5) / 10))) / 2 = (1 : ℝ)
    linear_combination ((3/40) + (-1/200) * s5 ^ 2) * h
  · show (-5 * 0 * 1 * (2 + (-3 + s5) * 0 - (3 + s5) * 1)) / 2 = (0 : ℝ)
    ring1

private theorem tri3_grad8 (x y : ℝ) :
    HasDerivAt (fun t => tri3 s5 t y 8) (tri3Grad s5 x y 8 0) x ∧
      HasDerivAt (fun t => tri3 s5 x t 8) (tri3Grad s5 x y 8 1) y := by
  refine ⟨?_, ?_⟩
  · show HasDerivAt (fun t : ℝ => (-5 * t * y * (2 + (-3 + s5) * t - (3 + s5) * y)) / 2) ((5 * y * (-2 - 2 * (-3 + s5) * x + (3 + s5) * y)) / 2) x
    hd; ring1
  · show HasDerivAt (fun t : ℝ => (-5 * x * t * (2 + (-3 + s5) * x - (3 + s5) * t)) / 2) ((-5 * x * (2 + (-3 + s5) * x - 2 * (3 + s5) * y)) / 2) y
    hd; ring1

private theorem tri3_delta9 (h : s5 ^ 2 = 5) (j : Fin 10) : tri3 s5 (tri3Node ((5 - s5) / 10) ((5 + s5) / 10) j 0) (tri3Node ((5 - s5) / 10) ((5 + s5) / 10) j 1) 9 = if (9 : Fin 10) = j then 1 else 0 := by
  fin_cases j
  · show 0 * (1 + 0 - 0 * 0 - 0 * 0 + 5 * (-1 + 0) * 0) = (0 : ℝ)
    ring1
  · show 0 * (1 + ((5 - s5) / 10) - ((5 - s5) / 10) * ((5 - s5) / 10) - ((5 - s5) / 10) * 0 + 5 * (-1 + 0) * 0) = (0 : ℝ)
    ring1
  · show 0 * (1 + ((5 + s5) / 10) - ((5 + s5) / 10) * ((5 + s5) / 10) - ((5 + s5) / 10) * 0 + 5 * (-1 + 0) * 0) = (0 : ℝ)
    ring1
  · show 0 * (1 + 1 - 1 * 1 - 1 * 0 + 5 * (-1 + 0) * 0) = (0 : ℝ)
    ring1
  · show ((5 - s5) / 10) * (1 + 0 - 0 * 0 - 0 * ((5 - s5) / 10) + 5 * (-1 + ((5 - s5) / 10)) * ((5 - s5) / 10)) = (0 : ℝ)
    linear_combination ((1/40) + (-1/200) * s5 ^ 1) * h
  · show (1 / 3) * (1 + (1 / 3) - (1 / 3) * (1 / 3) - (1 / 3) * (1 / 3) + 5 * (-1 + (1 / 3)) * (1 / 3)) = (0 : ℝ)
    ring1
  · show ((5 - s5) / 10) * (1 + ((5 + s5) / 10) - ((5 + s5) / 10) * ((5 + s5) / 10) - ((5 + s5) / 10) * ((5 - s5) / 10) + 5 * (-1 + ((5 - s5) / 10)) * ((5 - s5) / 10)) = (0 : ℝ)
    linear_combination ((1/40) + (-1/200) * s5 ^ 1) * h
  · show ((5 + s5) / 10) * (1 + 0 - 0 * 0 - 0 * ((5 + s5) / 10) + 5 * (-1 + ((5 + s5) / 10)) * ((5 + s5) / 10)) = (0 : ℝ)
    linear_combination ((1/40) + (1/200) * s5 ^ 1) * h
  · show ((5 + s5) / 10) * (1 + ((5 - s5) / 10) - ((5 - s5) / 10) * ((5 - s5) / 10) - ((5 - s5) / 10) * ((5 + s5) / 10) + 5 * (-1 + ((5 + s5) / 10)) * ((5 + s5) / 10)) = (0 : ℝ)
    linear_combination ((1/40) + (1/200) * s5 ^ 1) * h
  · show 1 * (1 + 0 - 0 * 0 - 0 * 1 + 5 * (-1 + 1) * 1) = (1 : ℝ)
    ring1

private theorem tri3_grad9 (x y : ℝ) :
    HasDerivAt (fun t => tri3 s5 t y 9) (tri3Grad s5 x y 9 0) x ∧
      HasDerivAt (fun t => tri3 s5 x t 9) (tri3Grad s5 x y 9 1) y := by
  refine ⟨?_, ?_⟩
  · show HasDerivAt (fun t : ℝ => y * (1 + t - t * t - t * y + 5 * (-1 + y) * y)) (-(y * (-1 + 2 * x + y))) x
    hd; ring1
  · show HasDerivAt (fun t : ℝ => t * (1 + x - x * x - x * t + 5 * (-1 + t) * t)) (1 + x - x * x - 2 * (5 + x) * y + 15 * y * y) y
    hd; ring1

theorem tri3_delta (h : s5 ^ 2 = 5) (i j : Fin 10) : tri3 s5 (tri3Node ((5 - s5) / 10) ((5 + s5) / 10) j 0) (tri3Node ((5 - s5) / 10) ((5 + s5) / 10) j 1) i = if i = j then 1 else 0 := by
  fin_cases i
  · exact tri3_delta0 h j
  · exact tri3_delta1 h j
  · exact tri3_delta2 h j
  · exact tri3_delta3 h j
  · exact tri3_delta4 h j
  · exact tri3_delta5 h j
  · exact tri3_delta6 h j
  · exact tri3_delta7 h j
  · exact tri3_delta8 h j
  · exact tri3_delta9 h j

theorem tri3_mem (h : s5 ^ 2 = 5) (i : Fin 10) : (fun X : Fin 2 → ℝ => tri3 s5 (X 0) (X 1) i) ∈ polyDeg 2 3 := by
  fin_cases i
  · show (fun X : Fin 2 → ℝ => -((-1 + X 0 + X 1) * (1 + 5 * X 0 * X 0 + 5 * (-1 + X 1) * X 1 + X 0 * (-5 + 11 * X 1)))) ∈ _
    pd
  · show (fun X : Fin 2 → ℝ => (5 * X 0 * (-1 + X 0 + X 1) * (-1 - s5 + 2 * s5 * X 0 + (3 + s5) * X 1)) / 2) ∈ _
    pd
  · show (fun X : Fin 2 → ℝ => (-5 * X 0 * (-1 + X 0 + X 1) * (1 - s5 + 2 * s5 * X 0 + (-3 + s5) * X 1)) / 2) ∈ _
    pd
  · show (fun X : Fin 2 → ℝ => X 0 * (1 + 5 * X 0 * X 0 + X 1 - X 1 * X 1 - X 0 * (5 + X 1))) ∈ _
    pd
  · show (fun X : Fin 2 → ℝ => (5 * X 1 * (-1 + X 0 + X 1) * (-1 - s5 + (3 + s5) * X 0 + 2 * s5 * X 1)) / 2) ∈ _
    pd
  · show (fun X : Fin 2 → ℝ => -27 * X 0 * X 1 * (-1 + X 0 + X 1)) ∈ _
    pd
  · show (fun X : Fin 2 → ℝ => (5 * X 0 * X 1 * (-2 + (3 + s5) * X 0 - (-3 + s5) * X 1)) / 2) ∈ _
    pd
  · show (fun X : Fin 2 → ℝ => tri3 s5 (X 0) (X 1) 7) ∈ _
    simp only [tri3_7 h]; pd
  · show (fun X : Fin 2 → ℝ => (-5 * X 0 * X 1 * (2 + (-3 + s5) * X 0 - (3 + s5) * X 1)) / 2) ∈ _
    pd
  · show (fun X : Fin 2 → ℝ => X 1 * (1 + X 0 - X 0 * X 0 - X 0 * X 1 + 5 * (-1 + X 1) * X 1)) ∈ _
    pd

theorem tri3_grad (h : s5 ^ 2 = 5) (x y : ℝ) (i : Fin 10) :
    HasDerivAt (fun t => tri3 s5 t y i) (tri3Grad s5 x y i 0) x ∧
      HasDerivAt (fun t => tri3 s5 x t i) (tri3Grad s5 x y i 1) y := by
  fin_cases i
  · exact tri3_grad0 x y
  · exact tri3_grad1 x y
  · exact tri3_grad2 x y
  · exact tri3_grad3 x y
  · exact tri3_grad4 x y
  · exact tri3_grad5 x y
  · exact tri3_grad6 x y
  · exact tri3_grad7 h x y
  · exact tri3_grad8 x y
  · exact tri3_grad9 x y

private theorem tet1_delta0 (_h : s5 ^ 2 = 5) (j : Fin 4) : tet1 s5 (tet1Node j 0) (tet1Node j 1) (tet1Node j 2) 0 = if (0 : Fin 4) = j then 1 else 0 := by
  fin_cases j
  · show 1 - 0 - 0 - 0 = (1 : ℝ)
    ring1
  · show 1 - 1 - 0 - 0 = (0 : ℝ)
    ring1
  · show 1 - 0 - 1 - 0 = (0 : ℝ)
    ring1
  · show 1 - 0 - 0 - 1 = (0 : ℝ)
    ring1

private theorem tet1_grad0 (x y z : ℝ) :
    HasDerivAt (fun t => tet1 s5 t y z 0) (tet1Grad s5 x y z 0 0) x ∧
      HasDerivAt (fun t => tet1 s5 x t z 0) (tet1Grad s5 x y z 0 1) y ∧
      HasDerivAt (fun t => tet1 s5 x y t 0) (tet1Grad s5 x y z 0 2) z := by
  refine ⟨?_, ?_, ?_⟩
  · show HasDerivAt (fun t : ℝ => 1 - t - y - z) (-1) x
    hd; ring1
  · show HasDerivAt (fun t : ℝ => 1 - x - t - z) (-1) y
    hd; ring1
  · show HasDerivAt (fun t : ℝ => 1 - x - y - t) (-1) z
    hd; ring1

private theorem tet1_delta1 (_h : s5 ^ 2 = 5) (j : Fin 4) : tet1 s5 (tet1Node j 0) (tet1Node j 1) (tet1Node j 2) 1 = if (1 : Fin 4) = j then 1 else 0 := by
  fin_cases j
  · show 0 = (0 : ℝ)
    ring1
  · show 1 = (1 : ℝ)
    ring1
  · show 0 = (0 : ℝ)
    ring1
  · show 0 = (0 : ℝ)
    ring1

private theorem tet1_grad1 (x y z : ℝ) :
    HasDerivAt (fun t => tet1 s5 t y z 1) (tet1Grad s5 x y z 1 0) x ∧
      HasDerivAt (fun t => tet1 s5 x t z 1) (tet1Grad s5 x y z 1 1) y ∧
      HasDerivAt (fun t => tet1 s5 x y t 1) (tet1Grad s5 x y z 1 2) z := by
  refine ⟨?_, ?_, ?_⟩
  · show HasDerivAt (fun t : ℝ => t) (1) x
    hd; ring1
  · show HasDerivAt (fun t : ℝ => x) (0) y
    hd; ring1
  · show HasDerivAt (fun t : ℝ => x) (0) z
    hd; ring1

private theorem tet1_delta2 (_h : s5 ^ 2 = 5) (j : Fin 4) : tet1 s5 (tet1Node j 0) (tet1Node j 1) (tet1Node j 2) 2 = if (2 : Fin 4) = j then 1 else 0 := by
  fin_cases j
  · show 0 = (0 : ℝ)
    ring1
  · show 0 = (0 : ℝ)
    ring1
  · show 1 = (1 : ℝ)
    ring1
  · show 0 = (0 : ℝ)
    ring1

private theorem tet1_grad2 (x y z : ℝ) :
    HasDerivAt (fun t => tet1 s5 t y z 2) (tet1Grad s5 x y z 2 0) x ∧
      HasDerivAt (fun t => tet1 s5 x t z 2) (tet1Grad s5 x y z 2 1) y ∧
      HasDerivAt (fun t => tet1 s5 x y t 2) (tet1Grad s5 x y z 2 2) z := by
  refine ⟨?_, ?_, ?_⟩
  · show HasDerivAt (fun t : ℝ => y) (0) x
    hd; ring1
  · show HasDerivAt (fun t : ℝ => t) (1) y
    hd; ring1
  · show HasDerivAt (fun t : ℝ => y) (0) z
    hd; ring1

private theorem tet1_delta3 (_h : s5 ^ 2 = 5) (j : Fin 4) : tet1 s5 (tet1Node j 0) (tet1Node j 1) (tet1Node j 2) 3 = if (3 : Fin 4) = j then 1 else 0 := by
  fin_cases j
  · show 0 = (0 : ℝ)
    ring1
  · show 0 = (0 : ℝ)
    ring1
  · show 0 = (0 : ℝ)
    ring1
  · show 1 = (1 : ℝ)
    ring1

private theorem tet1_grad3 (x y z : ℝ) :
    HasDerivAt (fun t => tet1 s5 t y z 3) (tet1Grad s5 x y z 3 0) x ∧
      HasDerivAt (fun t => tet1 s5 x t z 3) (tet1Grad s5 x y z 3 1) y ∧
      HasDerivAt (fun t => tet1 s5 x y t 3) (tet1Grad s5 x y z 3 2) z := by
  refine ⟨?_, ?_, ?_⟩
  · show HasDerivAt (fun t : ℝ => z) (0) x
    hd; ring1
  · show HasDerivAt (fun t : ℝ => z) (0) y
    hd; ring1
  · show HasDerivAt (fun t : ℝ => t) (1) z
    hd; ring1

theorem tet1_delta (h : s5 ^ 2 = 5) (i j : Fin 4) : tet1 s5 (tet1Node j 0) (tet1Node j 1) (tet1Node j 2) i = if i = j then 1 else 0 := by
  fin_cases i
  · exact tet1_delta0 h j
  · exact tet1_delta1 h j
  · exact tet1_delta2 h j
  · exact tet1_delta3 h j

theorem tet1_mem (i : Fin 4) : (fun X : Fin 3 → ℝ => tet1 s5 (X 0) (X 1) (X 2) i) ∈ polyDeg 3 1 := by
  fin_cases i
  · show (fun X : Fin 3 → ℝ => 1 - X 0 - X 1 - X 2) ∈ _
    pd
  · show (fun X : Fin 3 → ℝ => X 0) ∈ _
    pd
  · show (fun X : Fin 3 → ℝ => X 1) ∈ _
    pd
  · show (fun X : Fin 3 → ℝ => X 2) ∈ _
    pd

theorem tet1_grad (x y z : ℝ) (i : Fin 4) :
    HasDerivAt (fun t => tet1 s5 t y z i) (tet1Grad s5 x y z i 0) x ∧
      HasDerivAt (fun t => tet1 s5 x t z i) (tet1Grad s5 x y z i 1) y ∧
      HasDerivAt (fun t => tet1 s5 x y t i) (tet1Grad s5 x y z i 2) z := by
  fin_cases i
  · exact tet1_grad0 x y z
  · exact tet1_grad1 x y z
  · exact tet1_grad2 x y z
  · exact tet1_grad3 x y z

private theorem tet2_delta0 (_h : s5 ^ 2 = 5) (j : Fin 10) : tet2 s5 (tet2Node j 0) (tet2Node j 1) (tet2Node j 2) 0 = if (0 : Fin 10) = j then 1 else 0 := by
  fin_cases j
  · show (-1 + 0 + 0 + 0) * (-1 + 2 * 0 + 2 * 0 + 2 * 0) = (1 : ℝ)
    ring1
  · show (-1 + (1 / 2) + 0 + 0) * (-1 + 2 * (1 / 2) + 2 * 0 + 2 * 0) = (0 : ℝ)
    ring1
  · show (-1 + 1 + 0 + 0) * (-1 + 2 * 1 + 2 * 0 + 2 * 0) = (0 : ℝ)
    ring1
  · show (-1 + 0 + (1 / 2) + 0) * (-1 + 2 * 0 + 2 * (1 / 2) + 2 * 0) = (0 : ℝ)
    ring1
  · show (-1 + (1 / 2) + (1 / 2) + 0) * (-1 + 2 * (1 / 2) + 2 * (1 / 2) + 2 * 0) = (0 : ℝ)
    ring1
  · show (-1 + 0 + 1 + 0) * (-1 + 2 * 0 + 2 * 1 + 2 * 0) = (0 : ℝ)
    ring1
  · show (-1 + 0 + 0 + (1 / 2)) * (-1 + 2 * 0 + 2 * 0 + 2 * (1 / 2)) = (0 : ℝ)
    ring1
  · show (-1 + (1 / 2) + 0 + (1 / 2)) * (-1 + 2 * (1 / 2) + 2 * 0 + 2 * (1 / 2)) = (0 : ℝ)
    ring1
  · show (-1 + 0 + (1 / 2) + (1 / 2)) * (-1 + 2 * 0 + 2 * (1 / 2) + 2 * (1 / 2)) = (0 : ℝ)
    ring1
  · show (-1 + 0 + 0 + 1) * (-1 + 2 * 0 + 2 * 0 + 2 * 1) = (0 : ℝ)
    ring1

private theorem tet2_grad0 (x y z : ℝ) :
    HasDerivAt (fun t => tet2 s5 t y z 0) (tet2Grad s5 x y z 0 0) x ∧
      HasDerivAt (fun t => tet2 s5 x t z 0) (tet2Grad s5 x y z 0 1) y ∧
      HasDerivAt (fun t => tet2 s5 x y t 0) (tet2Grad s5 x y z 0 2) z := by
  refine ⟨?_, ?_, ?_⟩
  · show HasDerivAt (fun t : ℝ => (-1 + t + y + z) * (-1 + 2 * t + 2 * y + 2 * z)) (-3 + 4 * x + 4 * y + 4 * z) x
    hd; ring1
  · show HasDerivAt (fun t : ℝ => (-1 + x + t + z) * (-1 + 2 * x + 2 * t + 2 * z)) (-3 + 4 * x + 4 * y + 4 * z) y
    hd; ring1
  · show HasDerivAt (fun t : ℝ => (-1 + x + y + t) * (-1 + 2 * x + 2 * y + 2 * t)) (-3 + 4 * x + 4 * y + 4 * z) z
    hd; ring1

private theorem tet2_delta1 (_h : s5 ^ 2 = 5) (j : Fin 10) : tet2 s5 (tet2Node j 0) (tet2Node j 1) (tet2Node j 2) 1 = if (1 : Fin 10) = j then 1 else 0 := by
  fin_cases j
  · show -4 * 0 * (-1 + 0 + 0 + 0) = (0 : ℝ)
    ring1
  · show -4 * (1 / 2) * (-1 + (1 / 2) + 0 + 0) = (1 : ℝ)
    ring1
  · show -4 * 1 * (-1 + 1 + 0 + 0) = (0 : ℝ)
    ring1
  · show -4 * 0 * (-1 + 0 + (1 / 2) + 0) = (0 : ℝ)
    ring1
  · show -4 * (1 / 2) * (-1 + (1 / 2) + (1 / 2) + 0) = (0 : ℝ)
    ring1
  · show -4 * 0 * (-1 + 0 + 1 + 0) = (0 : ℝ)
    ring1
  · show -4 * 0 * (-1 + 0 + 0 + (1 / 2)) = (0 : ℝ)
    ring1
  · show -4 * (1 / 2) * (-1 + (1 / 2) + 0 + (1 / 2)) = (0 : ℝ)
    ring1
  · show -4 * 0 * (-1 + 0 + (1 / 2) + (1 / 2)) = (0 : ℝ)
    ring1
  · show -4 * 0 * (-1 + 0 + 0 + 1) = (0 : ℝ)
    ring1

private theorem tet2_grad1 (x y z : ℝ) :
    HasDerivAt (fun t => tet2 s5 t y z 1) (tet2Grad s5 x y z 1 0) x ∧
      HasDerivAt (fun t => tet2 s5 x t z 1) (tet2Grad s5 x y z 1 1) y ∧
      HasDerivAt (fun t => tet2 s5 x y t 1) (tet2Grad s5 x y z 1 2) z := by
  refine ⟨?_, ?_, ?_⟩
  · show HasDerivAt (fun t : ℝ => -4 * t * (-1 + t + y + z)) (-4 * (-1 + 2 * x + y + z)) x
    hd; ring1
  · show HasDerivAt (fun t : ℝ => -4 * x * (-1 + x + t + z)) (-4 * x) y
    hd; ring1
  · show HasDerivAt (fun t : ℝ => -4 * x * (-1 + x + y + t)) (-4 * x) z
    hd; ring1

private theorem tet2_delta2 (_h : s5 ^ 2 = 5) (j : Fin 10) : tet2 s5 (tet2Node j 0) (tet2Node j 1) (tet2Node j 2) 2 = if (2 : Fin 10) = j then 1 else 0 := by
  fin_cases j
  · show 0 * (-1 + 2 * 0) = (0 : ℝ)
    ring1
  · show (1 / 2) * (-1 + 2 * (1 / 2)) = (0 : ℝ)
    ring1
  · show 1 * (-1 + 2 * 1) = (1 : ℝ)
    ring1
  · show 0 * (-1 + 2 * 0) = (0 : ℝ)
    ring1
  · show (1 / 2) * (-1 + 2 * (1 / 2)) = (0 : ℝ)
    ring1
  · show 0 * (-1 + 2 * 0) = (0 : ℝ)
    ring1
  · show 0 * (-1 + 2 * 0) = (0 : ℝ)
    ring1
  · show (1 / 2) * (-1 + 2 * (1 / 2)) = (0 : ℝ)
    ring1
  · show 0 * (-1 + 2 * 0) = (0 : ℝ)
    ring1
  · show 0 * (-1 + 2 * 0) = (0 : ℝ)
    ring1

private theorem tet2_grad2 (x y z : ℝ) :
    HasDerivAt (fun t => tet2 s5 t y z 2) (tet2Grad s5 x y z 2 0) x ∧
      HasDerivAt (fun t => tet2 s5 x t z 2) (tet2Grad s5 x y z 2 1) y ∧
      HasDerivAt (fun t => tet2 s5 x y t 2) (tet2Grad s5 x y z 2 2) z := by
  refine ⟨?_, ?_, ?_⟩
  · show HasDerivAt (fun t : ℝ => t * (-1 + 2 * t)) (-1 + 4 * x) x
    hd; ring1
  · show HasDerivAt (fun t : ℝ => x * (-1 + 2 * x)) (0) y
    hd; ring1
  · show HasDerivAt (fun t : ℝ => x * (-1 + 2 * x)) (0) z
    hd; ring1

private theorem tet2_delta3 (_h : s5 ^ 2 = 5) (j : Fin 10) : tet2 s5 (tet2Node j 0) (tet2Node j 1) (tet2Node j 2) 3 = if (3 : Fin 10) = j then 1 else 0 := by
  fin_cases j
  · show -4 * 0 * (-1 + 0 + 0 + 0) = (0 : ℝ)
    ring1
  · show -4 * 0 * (-1 + (1 / 2) + 0 + 0) = (0 : ℝ)
    ring1
  · show -4 * 0 * (-1 + 1 + 0 + 0) = (0 : ℝ)
    ring1
  · show -4 * (1 / 2) * (-1 + 0 + (1 / 2) + 0) = (1 : ℝ)
    ring1
  · show -4 * (1 / 2) * (-1 + (1 / 2) + (1 / 2) + 0) = (0 : ℝ)
    ring1
  · show -4 * 1 * (-1 + 0 + 1 + 0) = (0 : ℝ)
    ring1
  · show -4 * 0 * (-1 + 0 + 0 + (1 / 2)) = (0 : ℝ)
    ring1
  · show -4 * 0 * (-1 + (1 / 2) + 0 + (1 / 2)) = (0 : ℝ)
    ring1
  · show -4 * (1 / 2) * (-1 + 0 + (1 / 2) + (1 / 2)) = (0 : ℝ)
    ring1
  · show -4 * 0 * (-1 + 0 + 0 + 1) = (0 : ℝ)
    ring1

private theorem tet2_grad3 (x y z : ℝ) :
    HasDerivAt (fun t => tet2 s5 t y z 3) (tet2Grad s5 x y z 3 0) x ∧
      HasDerivAt (fun t => tet2 s5 x t z 3) (tet2Grad s5 x y z 3 1) y ∧
      HasDerivAt (fun t => tet2 s5 x y t 3) (tet2Grad s5 x y z 3 2) z := by
  refine ⟨?_, ?_, ?_⟩
  · show HasDerivAt (fun t : ℝ => -4 * y * (-1 + t + y + z)) (-4 * y) x
    hd; ring1
  · show HasDerivAt (fun t : ℝ => -4 * t * (-1 + x + t + z)) (-4 * (-1 + x + 2 * y + z)) y
    hd; ring1
  · show HasDerivAt (fun t : ℝ => -4 * y * (-1 + x + y + t)) (-4 * y) z
    hd; ring1

private theorem tet2_delta4 (_h : s5 ^ 2 = 5) (j : Fin 10) : tet2 s5 (tet2Node j 0) (tet2Node j 1) (tet2Node j 2) 4 = if (4 : Fin 10) = j then 1 else 0 := by
  fin_cases j
  · show 4 * 0 * 0 = (0 : ℝ)
    ring1
  · show 4 * (1 / 2) * 0 = (0 : ℝ)
    ring1
  · show 4 * 1 * 0 = (0 : ℝ)
    ring1
  · show 4 * 0 * (1 / 2) = (0 : ℝ)
    ring1
  · show 4 * (1 / 2) * (1 / 2) = (1 : ℝ)
    ring1
  · show 4 * 0 * 1 = (0 : ℝ)
    ring1
  · show 4 * 0 * 0 = (0 : ℝ)
    ring1
  · show 4 * (1 / 2) * 0 = (0 : ℝ)
    ring1
  · show 4 * 0 * (1 / 2) = (0 : ℝ)
    ring1
  · show 4 * 0 * 0 = (0 : ℝ)
    ring1

private theorem tet2_grad4 (x y z : ℝ) :
    HasDerivAt (fun t => tet2 s5 t y z 4) (tet2Grad s5 x y z 4 0) x ∧
      HasDerivAt (fun t => tet2 s5 x t z 4) (tet2Grad s5 x y z 4 1) y ∧
      HasDerivAt (fun t => tet2 s5 x y t 4) (tet2Grad s5 x y z 4 2) z := by
  refine ⟨?_, ?_, ?_⟩
  · show HasDerivAt (fun t : ℝ => 4 * t * y) (4 * y) x
    hd; ring1
  · show HasDerivAt (fun t : ℝ => 4 * x * t) (4 * x) y
    hd; ring1
  · show HasDerivAt (fun t : ℝ => 4 * x * y) (0) z
    hd; ring1

private theorem tet2_delta5 (_h : s5 ^ 2 = 5) (j : Fin 10) : tet2 s5 (tet2Node j 0) (tet2Node j 1) (tet2Node j 2) 5 = if (5 : Fin 10) = j then 1 else 0 := by
  fin_cases j
  · show 0 * (-1 + 2 * 0) = (0 : ℝ)
    ring1
  · show 0 * (-1 + 2 * 0) = (0 : ℝ)
    ring1
  · show 0 * (-1 + 2 * 0) = (0 : ℝ)
    ring1
  · show (1 / 2) * (-1 + 2 * (1 / 2)) = (0 : ℝ)
    ring1
  · show (1 / 2) * (-1 + 2 * (1 / 2)) = (0 : ℝ)
    ring1
  · show 1 * (-1 + 2 * 1) = (1 : ℝ)
    ring1
  · show 0 * (-1 + 2 * 0) = (0 : ℝ)
    ring1
  · show 0 * (-1 + 2 * 0) = (0 : ℝ)
    ring1
  · show (1 / 2) * (-1 + 2 * (1 / 2)) = (0 : ℝ)
    ring1
  · show 0 * (-1 + 2 * 0) = (0 : ℝ)
    ring1

private theorem tet2_grad5 (x y z : ℝ) :
    HasDerivAt (fun t => tet2 s5 t y z 5) (tet2Grad s5 x y z 5 0) x ∧
      HasDerivAt (fun t => tet2 s5 x t z 5) (tet2Grad s5 x y z 5 1) y ∧
      HasDerivAt (fun t => tet2 s5 x y t 5) (tet2Grad s5 x y z 5 2) z := by
  refine ⟨?_, ?_, ?_⟩
  · show HasDerivAt (fun t : ℝ => y * (-1 + 2 * y)) (0) x
    hd; ring1
  · show HasDerivAt (fun t : ℝ => t * (-1 + 2 * t)) (-1 + 4 * y) y
    hd; ring1
  · show HasDerivAt (fun t : ℝ => y * (-1 + 2 * y)) (0) z
    hd; ring1

private theorem tet2_delta6 (_h : s5 ^ 2 = 5) (j : Fin 10) : tet2 s5 (tet2Node j 0) (tet2Node j 1) (tet2Node j 2) 6 = if (6 : Fin 10) = j then 1 else 0 := by
  fin_cases j
  · show -4 * 0 * (-1 + 0 + 0 + 0) = (0 : ℝ)
    ring1
  · show -4 * 0 * (-1 + (1 / 2) + 0 + 0) = (0 : ℝ)
    ring1
  · show -4 * 0 * (-1 + 1 + 0 + 0) = (0 : ℝ)
    ring1
  · show -4 * 0 * (-1 + 0 + (1 / 2) + 0) = (0 : ℝ)
    ring1
  · show -4 * 0 * (-1 + (1 / 2) + (1 / 2) + 0) = (0 : ℝ)
    ring1
  · show -4 * 0 * (-1 + 0 + 1 + 0) = (0 : ℝ)
    ring1
  · show -4 * (1 / 2) * (-1 + 0 + 0 + (1 / 2)) = (1 : ℝ)
    ring1
  · show -4 * (1 / 2) * (-1 + (1 / 2) + 0 + (1 / 2)) = (0 : ℝ)
    ring1
  · show -4 * (1 / 2) * (-1 + 0 + (1 / 2) + (1 / 2)) = (0 : ℝ)
    ring1
  · show -4 * 1 * (-1 + 0 + 0 + 1) = (0 : ℝ)
    ring1

private theorem tet2_grad6 (x y z : ℝ) :
    HasDerivAt (fun t => tet2 s5 t y z 6) (tet2Grad s5 x y z 6 0) x ∧
      HasDerivAt (fun t => tet2 s5 x t z 6) (tet2Grad s5 x y z 6 1) y ∧
      HasDerivAt (fun t => tet2 s5 x y t 6) (tet2Grad s5 x y z 6 2) z := by
  refine ⟨?_, ?_, ?_⟩
  · show HasDerivAt (fun t : ℝ => -4 * z * (-1 + t + y + z)) (-4 * z) x
    hd; ring1
  · show HasDerivAt (fun t : ℝ => -4 * z * (-1 + x + t + z)) (-4 * z) y
    hd; ring1
  · show HasDerivAt (fun t : ℝ => -4 * t * (-1 + x + y + t)) (-4 * (-1 + x + y + 2 * z)) z
    hd; ring1

private theorem tet2_delta7 (_h : s5 ^ 2 = 5) (j : Fin 10) : tet2 s5 (tet2Node j 0) (tet2Node j 1) (tet2Node j 2) 7 = if (7 : Fin 10) = j then 1 else 0 := by
  fin_cases j
  · show 4 * 0 * 0 = (0 : ℝ)
    ring1
  · show 4 * (1 / 2) * 0 = (0 : ℝ)
    ring1
  · show 4 * 1 * 0 = (0 : ℝ)
    ring1
  · show 4 * 0 * 0 = (0 : ℝ)
    ring1
  · show 4 * (1 / 2) * 0 = (0 : ℝ)
    ring1
  · show 4 * 0 * 0 = (0 : ℝ)
    ring1
  · show 4 * 0 * (1 / 2) = (0 : ℝ)
    ring1
  · show 4 * (1 / 2) * (1 / 2) = (1 : ℝ)
    ring1
  · show 4 * 0 * (1 / 2) = (0 : ℝ)
    ring1
  · show 4 * 0 * 1 = (0 : ℝ)
    ring1

private theorem tet2_grad7 (x y z : ℝ) :
    HasDerivAt (fun t => tet2 s5 t y z 7) (tet2Grad s5 x y z 7 0) x ∧
      HasDerivAt (fun t => tet2 s5 x t z 7) (tet2Grad s5 x y z 7 1) y ∧
      HasDerivAt (fun t => tet2 s5 x y t 7) (tet2Grad s5 x y z 7 2) z := by
  refine ⟨?_, ?_, ?_⟩
  · show HasDerivAt (fun t : ℝ => 4 * t * z) (4 * z) x
    hd; ring1
  · show HasDerivAt (fun t : ℝ => 4 * x * z) (0) y
    hd; ring1
  · show HasDerivAt (fun t : ℝ => 4 * x * t) (4 * x) z
    hd; ring1

private theorem tet2_delta8 (_h : s5 ^ 2 = 5) (j : Fin 10) : tet2 s5 (tet2Node j 0) (tet2Node j 1) (tet2Node j 2) 8 = if (8 : Fin 10) = j then 1 else 0 := by
  fin_cases j
  · show 4 * 0 * 0 = (0 : ℝ)
    ring1
  · show 4 * 0 * 0 = (0 : ℝ)
    ring1
  · show 4 * 0 * 0 = (0 : ℝ)
    ring1
  · show 4 * (1 / 2) * 0 = (0 : ℝ)
    ring1
  · show 4 * (1 / 2) * 0 = (0 : ℝ)
    ring1
  · show 4 * 1 * 0 = (0 : ℝ)
    ring1
  · show 4 * 0 * (1 / 2) = (0 : ℝ)
    ring1
  · show 4 * 0 * (1 / 2) = (0 : ℝ)
    ring1
  · show 4 * (1 / 2) * (1 / 2) = (1 : ℝ)
    ring1
  · show 4 * 0 * 1 = (0 : ℝ)
    ring1

private theorem tet2_grad8 (x y z : ℝ) :
    HasDerivAt (fun t => tet2 s5 t y z 8) (tet2Grad s5 x y z 8 0) x ∧
      HasDerivAt (fun t => tet2 s5 x t z 8) (tet2Grad s5 x y z 8 1) y ∧
      HasDerivAt (fun t => tet2 s5 x y t 8) (tet2Grad s5 x y z 8 2) z := by
  refine ⟨?_, ?_, ?_⟩
  · show HasDerivAt (fun t : ℝ => 4 * y * z) (0) x
    hd; ring1
  · show HasDerivAt (fun t : ℝ => 4 * t * z) (4 * z) y
    hd; ring1
  · show HasDerivAt (fun t : ℝ => 4 * y * t) (4 * y) z
    hd; ring1

private theorem tet2_delta9 (_h : s5 ^ 2 = 5) (j : Fin 10) : tet2 s5 (tet2Node j 0) (tet2Node j 1) (tet2Node j 2) 9 = if (9 : Fin 10) = j then 1 else 0 := by
  fin_cases j
  · show 0 * (-1 + 2 * 0) = (0 : ℝ)
    ring1
  · show 0 * (-1 + 2 * 0) = (0 : ℝ)
    ring1
  · show 0 * (-1 + 2 * 0) = (0 : ℝ)
    ring1
  · show 0 * (-1 + 2 * 0) = (0 : ℝ)
    ring1
  · show 0 * (-1 + 2 * 0) = (0 : ℝ)
    ring1
  · show 0 * (-1 + 2 * 0) = (0 : ℝ)
    ring1
  · show (1 / 2) * (-1 + 2 * (1 / 2)) = (0 : ℝ)
    ring1
  · show (1 / 2) * (-1 + 2 * (1 / 2)) = (0 : ℝ)
    ring1
  · show (1 / 2) * (-1 + 2 * (1 / 2)) = (0 : ℝ)
    ring1
  · show 1 * (-1 + 2 * 1) = (1 : ℝ)
    ring1

private theorem tet2_grad9 (x y z : ℝ) :
    HasDerivAt (fun t => tet2 s5 t y z 9) (tet2Grad s5 x y z 9 0) x ∧
      HasDerivAt (fun t => tet2 s5 x t z 9) (tet2Grad s5 x y z 9 1) y ∧
      HasDerivAt (fun t => tet2 s5 x y t 9) (tet2Grad s5 x y z 9 2) z := by
  refine ⟨?_, ?_, ?_⟩
  · show HasDerivAt (fun t : ℝ => z * (-1 + 2 * z)) (0) x
    hd; ring1
  · show HasDerivAt (fun t : ℝ => z * (-1 + 2 * z)) (0) y
    hd; ring1
  · show HasDerivAt (fun t : ℝ => t * (-1 + 2 * t)) (-1 + 4 * z) z
    hd; ring1

theorem tet2_delta (h : s5 ^ 2 = 5) (i j : Fin 10) : tet2 s5 (tet2Node j 0) (tet2Node j 1) (tet2Node j 2) i = if i = j then 1 else 0 := by
  fin_cases i
  · exact tet2_delta0 h j
  · exact tet2_delta1 h j
  · exact tet2_delta2 h j
  · exact tet2_delta3 h j
  · exact tet2_delta4 h j
  · exact tet2_delta5 h j
  · exact tet2_delta6 h j
  · exact tet2_delta7 h j
  · exact tet2_delta8 h j
  · exact tet2_delta9 h j

theorem tet2_mem (i : Fin 10) : (fun X : Fin 3 → ℝ => tet2 s5 (X 0) (X 1) (X 2) i) ∈ polyDeg 3 2 := by
  fin_cases i
  · show (fun X : Fin 3 → ℝ => (-1 + X 0 + X 1 + X 2) * (-1 + 2 * X 0 + 2 * X 1 + 2 * X 2)) ∈ _
    pd
  · show (fun X : Fin 3 → ℝ => -4 * X 0 * (-1 + X 0 + X 1 + X 2)) ∈ _
    pd
  · show (fun X : Fin 3 → ℝ => X 0 * (-1 + 2 * X 0)) ∈ _
    pd
  · show (fun X : Fin 3 → ℝ => -4 * X 1 * (-1 + X 0 + X 1 + X 2)) ∈ _
    pd
  · show (fun X : Fin 3 → ℝ => 4 * X 0 * X 1) ∈ _
    pd
  · show (fun X : Fin 3 → ℝ => X 1 * (-1 + 2 * X 1)) ∈ _
    pd
  · show (fun X : Fin 3 → ℝ => -4 * X 2 * (-1 + X 0 + X 1 + X 2)) ∈ _
    pd
  · show (fun X : Fin 3 → ℝ => 4 * X 0 * X 2) ∈ _
    pd
  · show (fun X : Fin 3 → ℝ => 4 * X 1 * X 2) ∈ _
    pd
  · show (fun X : Fin 3 → ℝ => X 2 * (-1 + 2 * X 2)) ∈ _
    pd

theorem tet2_grad (x y z : ℝ) (i : Fin 10) :
    HasDerivAt (fun t => tet2 s5 t y z i) (tet2Grad s5 x y z i 0) x ∧
      HasDerivAt (fun t => tet2 s5 x t z i) (tet2Grad s5 x y z i 1) y ∧
      HasDerivAt (fun t => tet2 s5 x y t i) (tet2Grad s5 x y z i 2) z := by
  fin_cases i
  · exact tet2_grad0 x y z
  · exact tet2_grad1 x y z
  · exact tet2_grad2 x y z
  · exact tet2_grad3 x y z
  · exact tet2_grad4 x y z
  · exact tet2_grad5 x y z
  · exact tet2_grad6 x y z
  · exact tet2_grad7 x y z
  · exact tet2_grad8 x y z
  · exact tet2_grad9 x y z

private theorem tet3_delta0 (h : s5 ^ 2 = 5) (j : Fin 20) : tet3 s5 (tet3Node ((5 - s5) / 10) ((5 + s5) / 10) j 0) (tet3Node ((5 - s5) / 10) ((5 + s5) / 10) j 1) (tet3Node ((5 - s5) / 10) ((5 + s5) / 10) j 2) 0 = if (0 : Fin 20) = j then 1 else 0 := by
  fin_cases j
  · show -((-1 + 0 + 0 + 0) * (1 + 5 * 0 * 0 + 5 * 0 * 0 + 5 * (-1 + 0) * 0 + 0 * (-5 + 11 * 0) + 0 * (-5 + 11 * 0 + 11 * 0))) = (1 : ℝ)
    ring1
  · show -((-1 + ((5 - s5) / 10) + 0 + 0) * (1 + 5 * ((5 - s5) / 10) * ((5 - s5) / 10) + 5 * 0 * 0 + 5 * (-1 + 0) * 0 + 0 * (-5 + 11 * 0) + ((5 - s5) / 10) * (-5 + 11 * 0 + 11 * 0))) = (0 : ℝ)
    linear_combination ((1/40) + (1/200) * s5 ^ 1) * h
  · show -((-1 + ((5 + s5) / 10) + 0 + 0) * (1 + 5 * ((5 + s5) / 10) * ((5 + s5) / 10) + 5 * 0 * 0 + 5 * (-1 + 0) * 0 + 0 * (-5 + 11 * 0) + ((5 + s5) / 10) * (-5 + 11 * 0 + 11 * 0))) = (0 : ℝ)
    linear_combination ((1/40) + (-1/200) * s5 ^ 1) * h
  · show -((-1 + 1 + 0 + 0) * (1 + 5 * 1 * 1 + 5 * 0 * 0 + 5 * (-1 + 0) * 0 + 0 * (-5 + 11 * 0) + 1 * (-5 + 11 * 0 + 11 * 0))) = (0 : ℝ)
    ring1
  · show -((-1 + 0 + ((5 - s5) / 10) + 0) * (1 + 5 * 0 * 0 + 5 * ((5 - s5) / 10) * ((5 - s5) / 10) + 5 * (-1 + 0) * 0 + ((5 - s5) / 10) * (-5 + 11 * 0) + 0 * (-5 + 11 * ((5 - s5) / 10) + 11 * 0))) = (0 : ℝ)
    linear_combination ((1/40) + (1/200) * s5 ^ 1) * h
  · show -((-1 + (1 / 3) + (1 / 3) + 0) * (1 + 5 * (1 / 3) * (1 / 3) + 5 * (1 / 3) * (1 / 3) + 5 * (-1 + 0) * 0 + (1 / 3) * (-5 + 11 * 0) + (1 / 3) * (-5 + 11 * (1 / 3) + 11 * 0))) = (0 : ℝ)
    ring1
  · show -((-1 + ((5 + s5) / 10) + ((5 - s5) / 10) + 0) * (1 + 5 * ((5 + s5) / 10) * ((5 + s5) / 10) + 5 * ((5 - s5) / 10) * ((5 - s5) / 10) + 5 * (-1 + 0) * 0 + ((5 - s5) / 10) * (-5 + 11 * 0) + ((5 + s5) / 10) * (-5 + 11 * ((5 - s5) / 10) + 11 * 0))) = (0 : ℝ)
    ring1
  · show -((-1 + 0 + ((5 + s5) / 10) + 0) * (1 + 5 * 0 * 0 + 5 * ((5 + s5) / 10) * ((5 + s5) / 10) + 5 * (-1 + 0) * 0 + ((5 + s5) / 10) * (-5 + 11 * 0) + 0 * (-5 + 11 * ((5 + s5) / 10) + 11 * 0))) = (0 : ℝ)
    linear_combination ((1/40) + (-1/200) * s5 ^ 1) * h
  · show -((-1 + ((5 - s5) / 10) + ((5 + s5) / 10) + 0) * (1 + 5 * ((5 - s5) / 10) * ((5 - s5) / 10) + 5 * ((5 + s5) / 10) * ((5 + s5) / 10) + 5 * (-1 + 0) * 0 + ((5 + s5) / 10) * (-5 + 11 * 0) + ((5 - s5) / 10) * (-5 + 11 * ((5 + s5) / 10) + 11 * 0))) = (0 : ℝ)
    ring1
  · show -((-1 + 0 + 1 + 0) * (1 + 5 * 0 * 0 + 5 * 1 * 1 + 5 * (-1 + 0) * 0 + 1 * (-5 + 11 * 0) + 0 * (-5 + 11 * 1 + 11 * 0))) = (0 : ℝ)
    ring1
  · show -((-1 + 0 + 0 + ((5 - s5) / 10)) * (1 + 5 * 0 * 0 + 5 * 0 * 0 + 5 * (-1 + ((5 - s5) / 10)) * ((5 - s5) / 10) + 0 * (-5 + 11 * ((5 - s5) / 10)) + 0 * (-5 + 11 * 0 + 11 * ((5 - s5) / 10)))) = (0 : ℝ)
    linear_combination ((1/40) + (1/200) * s5 ^ 1) * h
  · show -((-1 + (1 / 3) + 0 + (1 / 3)) * (1 + 5 * (1 / 3) * (1 / 3) + 5 * 0 * 0 + 5 * (-1 + (1 / 3)) * (1 / 3) + 0 * (-5 + 11 * (1 / 3)) + (1 / 3) * (-5 + 11 * 0 + 11 * (1 / 3)))) = (0 : ℝ)
    ring1
  · show -((-1 + ((5 + s5) / 10) + 0 + ((5 - s5) / 10)) * (1 + 5 * ((5 + s5) / 10) * ((5 + s5) / 10) + 5 * 0 * 0 + 5 * (-1 + ((5 - s5) / 10)) * ((5 - s5) / 10) + 0 * (-5 + 11 * ((5 - s5) / 10)) + ((5 + s5) / 10) * (-5 + 11 * 0 + 11 * ((5 - s5) / 10)))) = (0 : ℝ)
    ring1
  · show -((-1 + 0 + (1 / 3) + (1 / 3)) * (1 + 5 * 0 * 0 + 5 * (1 / 3) * (1 / 3) + 5 * (-1 + (1 / 3)) * (1 / 3) + (1 / 3) * (-5 + 11 * (1 / 3)) + 0 * (-5 + 11 * (1 / 3) + 11 * (1 / 3)))) = (0 : ℝ)
    ring1
  · show -((-1 + (1 / 3) + (1 / 3) + (1 / 3)) * (1 + 5 * (1 / 3) * (1 / 3) + 5 * (1 / 3) * (1 / 3) + 5 * (-1 + (1 / 3)) * (1 / 3) + (1 / 3) * (-5 + 11 * (1 / 3)) + (1 / 3) * (-5 + 11 * (1 / 3) + 11 * (1 / 3)))) = (0 : ℝ)
    ring1
  · show -((-1 + 0 + ((5 + s5) / 10) + ((5 - s5) / 10)) * (1 + 5 * 0 * 0 + 5 * ((5 + s5) / 10) * ((5 + s5) / 10) + 5 * (-1 + ((5 - s5) / 10)) * ((5 - s5) / 10) + ((5 + s5) / 10) * (-5 + 11 * ((5 - s5) / 10)) + 0 * (-5 + 11 * ((5 + s5) / 10) + 11 * ((5 - s5) / 10)))) = (0 : ℝ)
    ring1
  · show -((-1 + 0 + 0 + ((5 + s5) / 10)) * (1 + 5 * 0 * 0 + 5 * 0 * 0 + 5 * (-1 + ((5 + s5) / 10)) * ((5 + s5) / 10) + 0 * (-5 + 11 * ((5 + s5) / 10)) + 0 * (-5 + 11 * 0 + 11 * ((5 + s5) / 10)))) = (0 : ℝ)
    linear_combination ((1/40) + (-1/200) * s5 ^ 1) * h
  · show -((-1 + ((5 - s5) / 10) + 0 + ((5 + s5) / 10)) * (1 + 5 * ((5 - s5) / 10) * ((5 - s5) / 10) + 5 * 0 * 0 + 5 * (-1 + ((5 + s5) / 10)) * ((5 + s5) / 10) + 0 * (-5 + 11 * ((5 + s5) / 10)) + ((5 - s5) / 10) * (-5 + 11 * 0 + 11 * ((5 + s5) / 10)))) = (0 : ℝ)
    ring1
  · show -((-1 + 0 + ((5 - s5) / 10) + ((5 + s5) / 10)) * (1 + 5 * 0 * 0 + 5 * ((5 - s5) / 10) * ((5 - s5) / 10) + 5 * (-1 + ((5 + s5) / 10)) * ((5 + s5) / 10) + ((5 - s5) / 10) * (-5 + 11 * ((5 + s5) / 10)) + 0 * (-5 + 11 * ((5 - s5) / 10) + 11 * ((5 + s5) / 10)))) = (0 : ℝ)
    ring1
  · show -((-1 + 0 + 0 + 1) * (1 + 5 * 0 * 0 + 5 * 0 * 0 + 5 * (-1 + 1) * 1 + 0 * (-5 + 11 * 1) + 0 * (-5 + 11 * 0 + 11 * 1))) = (0 : ℝ)
    ring1

private theorem tet3_grad0 (x y z : ℝ) :
    HasDerivAt (fun t => tet3 s5 t y z 0) (tet3Grad s5 x y z 0 0) x ∧
      HasDerivAt (fun t => tet3 s5 x t z 0) (tet3Grad s5 x y z 0 1) y ∧
      HasDerivAt (fun t => tet3 s5 x y t 0) (tet3Grad s5 x y z 0 2) z := by
  refine ⟨?_, ?_, ?_⟩
  · show HasDerivAt (fun t : ℝ => -((-1 + t + y + z) * (1 + 5 * t * t + 5 * y * y + 5 * (-1 + z) * z + y * (-5 + 11 * z) + t * (-5 + 11 * y + 11 * z)))) (-6 - 15 * x * x - 16 * y * y + y * (21 - 33 * z) + (21 - 16 * z) * z - 4 * x * (-5 + 8 * y + 8 * z)) x
    hd; ring1
  · show HasDerivAt (fun t : ℝ => -((-1 + x + t + z) * (1 + 5 * x * x + 5 * t * t + 5 * (-1 + z) * z + t * (-5 + 11 * z) + x * (-5 + 11 * t + 11 * z)))) (-6 - 16 * x * x + 20 * y + x * (21 - 32 * y - 33 * z) + 21 * z - (3 * y + 4 * z) * (5 * y + 4 * z)) y
    hd; ring1
  · show HasDerivAt (fun t : ℝ => -((-1 + x + y + t) * (1 + 5 * x * x + 5 * y * y + 5 * (-1 + t) * t + y * (-5 + 11 * t) + x * (-5 + 11 * y + 11 * t)))) (-6 - 16 * x * x + 21 * y + x * (21 - 33 * y - 32 * z) + 20 * z - (4 * y + 3 * z) * (4 * y + 5 * z)) z
    hd; ring1

private theorem tet3_delta1 (h : s5 ^ 2 = 5) (j : Fin 20) : tet3 s5 (tet3Node ((5 - s5) / 10) ((5 + s5) / 10) j 0) (tet3Node ((5 - s5) / 10) ((5 + s5) / 10) j 1) (tet3Node ((5 - s5) / 10) ((5 + s5) / 10) j 2) 1 = if (1 : Fin 20) = j then 1 else 0 := by
  fin_cases j
  · show (5 * 0 * (-1 + 0 + 0 + 0) * (-1 - s5 + 2 * s5 * 0 + (3 + s5) * 0 + (3 + s5) * 0)) / 2 = (0 : ℝ)
    ring1
  · show (5 * ((5 - s5) / 10) * (-1 + ((5 - s5) / 10) + 0 + 0) * (-1 - s5 + 2 * s5 * ((5 - s5) / 10) + (3 + s5) * 0 + (3 + s5) * 0)) / 2 = (1 : ℝ)
    linear_combination ((3/40) + (-1/200) * s5 ^ 2) * h
  · show (5 * ((5 + s5) / 10) * (-1 + ((5 + s5) / 10) + 0 + 0) * (-1 - s5 + 2 * s5 * ((5 + s5) / 10) + (3 + s5) * 0 + (3 + s5) * 0)) / 2 = (0 : ℝ)
    linear_combination ((-1/8) + (1/200) * s5 ^ 2) * h
  · show (5 * 1 * (-1 + 1 + 0 + 0) * (-1 - s5 + 2 * s5 * 1 + (3 + s5) * 0 + (3 + s5) * 0)) / 2 = (0 : ℝ)
    ring1
  · show (5 * 0 * (-1 + 0 + ((5 - s5) / 10) + 0) * (-1 - s5 + 2 * s5 * 0 + (3 + s5) * ((5 - s5) / 10) + (3 + s5) * 0)) / 2 = (0 : ℝ)
    ring1
  · show (5 * (1 / 3) * (-1 + (1 / 3) + (1 / 3) + 0) * (-1 - s5 + 2 * s5 * (1 / 3) + (3 + s5) * (1 / 3) + (3 + s5) * 0)) / 2 = (0 : ℝ)
    ring1
  · show (5 * ((5 + s5) / 10) * (-1 + ((5 + s5) / 10) + ((5 - s5) / 10) + 0) * (-1 - s5 + 2 * s5 * ((5 + s5) / 10) + (3 + s5) * ((5 - s5) / 10) + (3 + s5) * 0)) / 2 = (0 : ℝ)
    ring1
  · show (5 * 0 * (-1 + 0 + ((5 + s5) / 10) + 0) * (-1 - s5 + 2 * s5 * 0 + (3 + s5) * ((5 + s5) / 10) + (3 + s5) * 0)) / 2 = (0 : ℝ)
    ring1
  · show (5 * ((5 - s5) / 10) * (-1 + ((5 - s5) / 10) + ((5 + s5) / 10) + 0) * (-1 - s5 + 2 * s5 * ((5 - s5) / 10) + (3 + s5) * ((5 + s5) / 10) + (3 + s5) * 0)) / 2 = (0 : ℝ)
    ring1
  · show (5 * 0 * (-1 + 0 + 1 + 0) * (-1 - s5 + 2 * s5 * 0 + (3 + s5) * 1 + (3 + s5) * 0)) / 2 = (0 : ℝ)
    ring1
  · show (5 * 0 * (-1 + 0 + 0 + ((5 - s5) / 10)) * (-1 - s5 + 2 * s5 * 0 + (3 + s5) * 0 + (3 + s5) * ((5 - s5) / 10))) / 2 = (0 : ℝ)
    ring1
  · show (5 * (1 / 3) * (-1 + (1 / 3) + 0 + (1 / 3)) * (-1 - s5 + 2 * s5 * (1 / 3) + (3 + s5) * 0 + (3 + s5) * (1 / 3))) / 2 = (0 : ℝ)
    ring1
  · show (5 * ((5 + s5) / 10) * (-1 + ((5 + s5) / 10) + 0 + ((5 - s5) / 10)) * (-1 - s5 + 2 * s5 * ((5 + s5) / 10) + (3 + s5) * 0 + (3 + s5) * ((5 - s5) / 10))) / 2 = (0 : ℝ)
    ring1
  · show (5 * 0 * (-1 + 0 + (1 / 3) + (1 / 3)) * (-1 - s5 + 2 * s5 * 0 + (3 + s5) * (1 / 3) + (3 + s5) * (1 / 3))) / 2 = (0 : ℝ)
    ring1
  · show (5 * (1 / 3) * (-1 + (1 / 3) + (1 / 3) + (1 / 3)) * (-1 - s5 + 2 * s5 * (1 / 3) + (3 + s5) * (1 / 3) + (3 + s5) * (1 / 3))) / 2 = (0 : ℝ)
    ring1
  · show (5 * 0 * (-1 + 0 + ((5 + s5) / 10) + ((5 - s5) / 10)) * (-1 - s5 + 2 * s5 * 0 + (3 + s5) * ((5 + s5) / 10) + (3 + s5) * ((5 - s5) / 10))) / 2 = (0 : ℝ)
    ring1
  · show (5 * 0 * (-1 + 0 + 0 + ((5 + s5) / 10)) * (-1 - s5 + 2 * s5 * 0 + (3 + s5) * 0 + (3 + s5) * ((5 + s5) / 10))) / 2 = (0 : ℝ)
    ring1
  · show (5 * ((5 - s5) / 10) * (-1 + ((5 - s5) / 10) + 0 + ((5 + s5) / 10)) * (-1 - s5 + 2 * s5 * ((5 - s5) / 10) + (3 + s5) * 0 + (3 + s5) * ((5 + s5) / 10))) / 2 = (0 : ℝ)
    ring1
  · show (5 * 0 * (-1 + 0 + ((5 - s5) / 10) + ((5 + s5) / 10)) * (-1 - s5 + 2 * s5 * 0 + (3 + s5) * ((5 - s5) / 10) + (3 + s5) * ((5 + s5) / 10))) / 2 = (0 : ℝ)
    ring1
  · show (5 * 0 * (-1 + 0 + 0 + 1) * (-1 - s5 + 2 * s5 * 0 + (3 + s5) * 0 + (3 + s5) * 1)) / 2 = (0 : ℝ)
    ring1

private theorem tet3_grad1 (x y z : ℝ) :
    HasDerivAt (fun t => tet3 s5 t y z 1) (tet3Grad s5 x y z 1 0) x ∧
      HasDerivAt (fun t => tet3 s5 x t z 1) (tet3Grad s5 x y z 1 1) y ∧
      HasDerivAt (fun t => tet3 s5 x y t 1) (tet3Grad s5 x y z 1 2) z := by
  refine ⟨?_, ?_, ?_⟩
  · show HasDerivAt (fun t : ℝ => (5 * t * (-1 + t + y + z) * (-1 - s5 + 2 * s5 * t + (3 + s5) * y + (3 + s5) * z)) / 2) ((5 * (6 * s5 * x * x + x * (-2 - 6 * s5 + 6 * (1 + s5) * y + 6 * (1 + s5) * z) + (-1 + y + z) * (-1 - s5 + (3 + s5) * y + (3 + s5) * z))) / 2) x
    hd; ring1
  · show HasDerivAt (fun t : ℝ => (5 * x * (-1 + x + t + z) * (-1 - s5 + 2 * s5 * x + (3 + s5) * t + (3 + s5) * z)) / 2) ((5 * x * (-4 - 2 * s5 + 3 * (1 + s5) * x + 2 * (3 + s5) * y + 2 * (3 + s5) * z)) / 2) y
    hd; ring1
  · show HasDerivAt (fun t : ℝ => (5 * x * (-1 + x + y + t) * (-1 - s5 + 2 * s5 * x + (3 + s5) * y + (3 + s5) * t)) / 2) ((5 * x * (-4 - 2 * s5 + 3 * (1 + s5) * x + 2 * (3 + s5) * y + 2 * (3 + s5) * z)) / 2) z
    hd; ring1

private theorem tet3_delta2 (h : s5 ^ 2 = 5) (j : Fin 20) : tet3 s5 (tet3Node ((5 - s5) / 10) ((5 + s5) / 10) j 0) (tet3Node ((5 - s5) / 10) ((5 + s5) / 10) j 1) (tet3Node ((5 - s5) / 10) ((5 + s5) / 10) j 2) 2 = if (2 : Fin 20) = j then 1 else 0 := by
  fin_cases j
  · show (-5 * 0 * (-1 + 0 + 0 + 0) * (1 - s5 + 2 * s5 * 0 + (-3 + s5) * 0 + (-3 + s5) * 0)) / 2 = (0 : ℝ)
    ring1
  · show (-5 * ((5 - s5) / 10) * (-1 + ((5 - s5) / 10) + 0 + 0) * (1 - s5 + 2 * s5 * ((5 - s5) / 10) + (-3 + s5) * 0 + (-3 + s5) * 0)) / 2 = (0 : ℝ)
    linear_combination ((-1/8) + (1/200) * s5 ^ 2) * h
  · show (-5 * ((5 + s5) / 10) * (-1 + ((5 + s5) / 10) + 0 + 0) * (1 - s5 + 2 * s5 * ((5 + s5) / 10) + (-3 + s5) * 0 + (-3 + s5) * 0)) / 2 = (1 : ℝ)
    linear_combination ((3/40) + (-1/200) * s5 ^ 2) * h
  · show (-5 * 1 * (-1 + 1 + 0 + 0) * (1 - s5 + 2 * s5 * 1 + (-3 + s5) * 0 + (-3 + s5) * 0)) / 2 = (0 : ℝ)
    ring1
  · show (-5 * 0 * (-1 + 0 + ((5 - s5) / 10) + 0) * (1 - s5 + 2 * s5 * 0 + (-3 + s5) * ((5 - s5) / 10) + (-3 + s5) * 0)) / 2 = (0 : ℝ)
    ring1
  · show (-5 * (1 / 3) * (-1 + (1 / 3) + (1 / 3) + 0) * (1 - s5 + 2 * s5 * (1 / 3) + (-3 + s5) * (1 / 3) + (-3 + s5) * 0)) / 2 = (0 : ℝ)
    ring1
  · show (-5 * ((5 + s5) / 10) * (-1 + ((5 + s5) / 10) + ((5 - s5) / 10) + 0) * (1 - s5 + 2 * s5 * ((5 + s5) / 10) + (-3 + s5) * ((5 - s5) / 10) + (-3 + s5) * 0)) / 2 = (0 : ℝ)
    ring1
  · show (-5 * 0 * (-1 + 0 + ((5 + s5) / 10) + 0) * (1 - s5 + 2 * s5 * 0 + (-3 + s5) * ((5 + s5) / 10) + (-3 + s5) * 0)) / 2 = (0 : ℝ)
    ring1
  · show (-5 * ((5 - s5) / 10) * (-1 + ((5 - s5) / 10) + ((5 + s5) / 10) + 0) * (1 - s5 + 2 * s5 * ((5 - s5) / 10) + (-3 + s5) * ((5 + s5) / 10) + (-3 + s5) * 0)) / 2 = (0 : ℝ)
    ring1
  · show (-5 * 0 * (-1 + 0 + 1 + 0) * (1 - s5 + 2 * s5 * 0 + (-3 + s5) * 1 + (-3 + s5) * 0)) / 2 = (0 : ℝ)
    ring1
  · show (-5 * 0 * (-1 + 0 + 0 + ((5 - s5) / 10)) * (1 - s5 + 2 * s5 * 0 + (-3 + s5) * 0 + (-3 + s5) * ((5 - s5) / 10))) / 2 = (0 : ℝ)
    ring1
  · show (-5 * (1 / 3) * (-1 + (1 / 3) + 0 + (1 / 3)) * (1 - s5 + 2 * s5 * (1 / 3) + (-3 + s5) * 0 + (-3 + s5) * (1 / 3))) / 2 = (0 : ℝ)
    ring1
  · show (-5 * ((5 + s5) / 10) * (-1 + ((5 + s5) / 10) + 0 + ((5 - s5) / 10)) * (1 - s5 + 2 * s5 * ((5 + s5) / 10) + (-3 + s5) * 0 + (-3 + s5) * ((5 - s5) / 10))) / 2 = (0 : ℝ)
    ring1
  · show (-5 * 0 * (-1 + 0 + (1 / 3) + (1 / 3)) * (1 - s5 + 2 * s5 * 0 + (-3 + s5) * (1 / 3) + (-3 + s5) * (1 / 3))) / 2 = (0 : ℝ)
    ring1
  · show (-5 * (1 / 3) * (-1 + (1 / 3) + (1 / 3) + (1 / 3)) * (1 - s5 + 2 * s5 * (1 / 3) + (-3 + s5) * (1 / 3) + (-3 + s5) * (1 / 3))) / 2 = (0 : ℝ)
    ring1
  · show (-5 * 0 * (-1 + 0 + ((5 + s5) / 10) + ((5 - s5) / 10)) * (1 - s5 + 2 * s5 * 0 + (-3 + s5) * ((5 + s5) / 10) + (-3 + s5) * ((5 - s5) / 10))) / 2 = (0 : ℝ)
    ring1
  · show (-5 * 0 * (-1 + 0 + 0 + ((5 + s5) / 10)) * (1 - s5 + 2 * s5 * 0 + (-3 + s5) * 0 + (-3 + s5) * ((5 + s5) / 10))) / 2 = (0 : ℝ)
    ring1
  · show (-5 * ((5 - s5) / 10) * (-1 + ((5 - s5) / 10) + 0 + ((5 + s5) / 10)) * (1 - s5 + 2 * s5 * ((5 - s5) / 10) + (-3 + s5) * 0 + (-3 + s5) * ((5 + s5) / 10))) / 2 = (0 : ℝ)
    ring1
  · show (-5 * 0 * (-1 + 0 + ((5 - s5) / 10) + ((5 + s5) / 10)) * (1 - s5 + 2 * s5 * 0 + (-3 + s5) * ((5 - s5) / 10) + (-3 + s5) * ((5 + s5) / 10))) / 2 = (0 : ℝ)
    ring1
  · show (-5 * 0 * (-1 + 0 + 0 + 1) * (1 - s5 + 2 * s5 * 0 + (-3 + s5) * 0 + (-3 + s5) * 1)) / 2 = (0 : ℝ)
    ring1

private theorem tet3_grad2 (x y z : ℝ) :
    HasDerivAt (fun t => tet3 s5 t y z 2) (tet3Grad s5 x y z 2 0) x ∧
      HasDerivAt (fun t => tet3 s5 x t z 2) (tet3Grad s5 x y z 2 1) y ∧
      HasDerivAt (fun t => tet3 s5 x y t 2) (tet3Grad s5 x y z 2 2) z := by
  refine ⟨?_, ?_, ?_⟩
  · show HasDerivAt (fun t : ℝ => (-5 * t * (-1 + t + y + z) * (1 - s5 + 2 * s5 * t + (-3 + s5) * y + (-3 + s5) * z)) / 2) (-15 * s5 * x * x - (5 * (-1 + y + z) * (1 - s5 + (-3 + s5) * y + (-3 + s5) * z)) / 2 - 5 * x * (1 - 3 * s5 + 3 * (-1 + s5) * y + 3 * (-1 + s5) * z)) x
    hd; ring1
  · show HasDerivAt (fun t : ℝ => (-5 * x * (-1 + x + t + z) * (1 - s5 + 2 * s5 * x + (-3 + s5) * t + (-3 + s5) * z)) / 2) ((-5 * x * (4 - 2 * s5 + 3 * (-1 + s5) * x + 2 * (-3 + s5) * y + 2 * (-3 + s5) * z)) / 2) y
    hd; ring1
  · show HasDerivAt (fun t : ℝ => (-5 * x * (-1 + x + y + t) * (1 - s5 + 2 * s5 * x + (-3 + s5) * y + (-3 + s5) * t)) / 2) ((-5 * x * (4 - 2 * s5 + 3 * (-1 + s5) * x + 2 * (-3 + s5) * y + 2 * (-3 + s5) * z)) / 2) z
    hd; ring1

private theorem tet3_delta3 (h : s5 ^ 2 = 5) (j : Fin 20) : tet3 s5 (tet3Node ((5 - s5) / 10) ((5 + s5) / 10) j 0) (tet3Node ((5 - s5) / 10) ((5 + s5) / 10) j 1) (tet3Node ((5 - s5) / 10) ((5 + s5) / 10) j 2) 3 = if (3 : Fin 20) = j then 1 else 0 := by
  fin_cases j
  · show 0 * (1 + 5 * 0 * 0 + 0 - 0 * 0 + 0 - 0 * 0 - 0 * 0 - 0 * (5 + 0 + 0)) = (0 : ℝ)
    ring1
  · show ((5 - s5) / 10) * (1 + 5 * ((5 - s5) / 10) * ((5 - s5) / 10) + 0 - 0 * 0 + 0 - 0 * 0 - 0 * 0 - ((5 - s5) / 10) * (5 + 0 + 0)) = (0 : ℝ)
    linear_combination ((1/40) + (-1/200) * s5 ^ 1) * h
  · show ((5 + s5) / 10) * (1 + 5 * ((5 + s5) / 10) * ((5 + s5) / 10) + 0 - 0 * 0 + 0 - 0 * 0 - 0 * 0 - ((5 + s5) / 10) * (5 + 0 + 0)) = (0 : ℝ)
    linear_combination ((1/40) + (1/200) * s5 ^ 1) * h
  · show 1 * (1 + 5 * 1 * 1 + 0 - 0 * 0 + 0 - 0 * 0 - 0 * 0 - 1 * (5 + 0 + 0)) = (1 : ℝ)
    ring1
  · show 0 * (1 + 5 * 0 * 0 + ((5 - s5) / 10) - ((5 - s5) / 10) * ((5 - s5) / 10) + 0 - ((5 - s5) / 10) * 0 - 0 * 0 - 0 * (5 + ((5 - s5) / 10) + 0)) = (0 : ℝ)
    ring1
  · show (1 / 3) * (1 + 5 * (1 / 3) * (1 / 3) + (1 / 3) - (1 / 3) * (1 / 3) + 0 - (1 / 3) * 0 - 0 * 0 - (1 / 3) * (5 + (1 / 3) + 0)) = (0 : ℝ)
    ring1
  · show ((5 + s5) / 10) * (1 + 5 * ((5 + s5) / 10) * ((5 + s5) / 10) + ((5 - s5) / 10) - ((5 - s5) / 10) * ((5 - s5) / 10) + 0 - ((5 - s5) / 10) * 0 - 0 * 0 - ((5 + s5) / 10) * (5 + ((5 - s5) / 10) + 0)) = (0 : ℝ)
    linear_combination ((1/40) + (1/200) * s5 ^ 1) * h
  · show 0 * (1 + 5 * 0 * 0 + ((5 + s5) / 10) - ((5 + s5) / 10) * ((5 + s5) / 10) + 0 - ((5 + s5) / 10) * 0 - 0 * 0 - 0 * (5 + ((5 + s5) / 10) + 0)) = (0 : ℝ)
    ring1
  · show ((5 - s5) / 10) * (1 + 5 * ((5 - s5) / 10) * ((5 - s5) / 10) + ((5 + s5) / 10) - ((5 + s5) / 10) * ((5 + s5) / 10) + 0 - ((5 + s5) / 10) * 0 - 0 * 0 - ((5 - s5) / 10) * (5 + ((5 + s5) / 10) + 0)) = (0 : ℝ)
    linear_combination ((1/40) + (-1/200) * s5 ^ 1) * h
  · show 0 * (1 + 5 * 0 * 0 + 1 - 1 * 1 + 0 - 1 * 0 - 0 * 0 - 0 * (5 + 1 + 0)) = (0 : ℝ)
    ring1
  · show 0 * (1 + 5 * 0 * 0 + 0 - 0 * 0 + ((5 - s5) / 10) - 0 * ((5 - s5) / 10) - ((5 - s5) / 10) * ((5 - s5) / 10) - 0 * (5 + 0 + ((5 - s5) / 10))) = (0 : ℝ)
    ring1
  · show (1 / 3) * (1 + 5 * (1 / 3) * (1 / 3) + 0 - 0 * 0 + (1 / 3) - 0 * (1 / 3) - (1 / 3) * (1 / 3) - (1 / 3) * (5 + 0 + (1 / 3))) = (0 : ℝ)
    ring1
  · show ((5 + s5) / 10) * (1 + 5 * ((5 + s5) / 10) * ((5 + s5) / 10) + 0 - 0 * 0 + ((5 - s5) / 10) - 0 * ((5 - s5) / 10) - ((5 - s5) / 10) * ((5 - s5) / 10) - ((5 + s5) / 10) * (5 + 0 + ((5 - s5) / 10))) = (0 : ℝ)
    linear_combination ((1/40) + (1/200) * s5 ^ 1) * h
  · show 0 * (1 + 5 * 0 * 0 + (1 / 3) - (1 / 3) * (1 / 3) + (1 / 3) - (1 / 3) * (1 / 3) - (1 / 3) * (1 / 3) - 0 * (5 + (1 / 3) + (1 / 3))) = (0 : ℝ)
    ring1
  · show (1 / 3) * (1 + 5 * (1 / 3) * (1 / 3) + (1 / 3) - (1 / 3) * (1 / 3) + (1 / 3) - (1 / 3) * (1 / 3) - (1 / 3) * (1 / 3) - (1 / 3) * (5 + (1 / 3) + (1 / 3))) = (0 : ℝ)
    ring1
  · show 0 * (1 + 5 * 0 * 0 + ((5 + s5) / 10) - ((5 + s5) / 10) * ((5 + s5) / 10) + ((5 - s5) / 10) - ((5 + s5) / 10) * ((5 - s5) / 10) - ((5 - s5) / 10) * ((5 - s5) / 10) - 0 * (5 + ((5 + s5) / 10) + ((5 - s5) / 10))) = (0 : ℝ)
    ring1
  · show 0 * (1 + 5 * 0 * 0 + 0 - 0 * 0 + ((5 + s5) / 10) - 0 * ((5 + s5) / 10) - ((5 + s5) / 10) * ((5 + s5) / 10) - 0 * (5 + 0 + ((5 + s5) / 10))) = (0 : ℝ)
    ring1
  · show ((5 - s5) / 10) * (1 + 5 * ((5 - s5) / 10) * ((5 - s5) / 10) + 0 - 0 * 0 + ((5 + s5) / 10) - 0 * ((5 + s5) / 10) - ((5 + s5) / 10) * ((5 + s5) / 10) - ((5 - s5) / 10) * (5 + 0 + ((5 + s5) / 10))) = (0 : ℝ)
    linear_combination ((1/40) + (-1/200) * s5 ^ 1) * h
  · show 0 * (1 + 5 * 0 * 0 + ((5 - s5) / 10) - ((5 - s5) / 10) * ((5 - s5) / 10) + ((5 + s5) / 10) - ((5 - s5) / 10) * ((5 + s5) / 10) - ((5 + s5) / 10) * ((5 + s5) / 10) - 0 * (5 + ((5 - s5) / 10) + ((5 + s5) / 10))) = (0 : ℝ)
    ring1
  · show 0 * (1 + 5 * 0 * 0 + 0 - 0 * 0 + 1 - 0 * 1 - 1 * 1 - 0 * (5 + 0 + 1)) = (0 : ℝ)
    ring1

private theorem tet3_grad3 (x y z : ℝ) :
    HasDerivAt (fun t => tet3 s5 t y z 3) (tet3Grad s5 x y z 3 0) x ∧
      HasDerivAt (fun t => tet3 s5 x t z 3) (tet3Grad s5 x y z 3 1) y ∧
      HasDerivAt (fun t => tet3 s5 x y t 3) (tet3Grad s5 x y z 3 2) z := by
  refine ⟨?_, ?_, ?_⟩
  · show HasDerivAt (fun t : ℝ => t * (1 + 5 * t * t + y - y * y + z - y * z - z * z - t * (5 + y + z))) (1 + 15 * x * x + y - y * y + z - y * z - z * z - 2 * x * (5 + y + z)) x
    hd; ring1
  · show HasDerivAt (fun t : ℝ => x * (1 + 5 * x * x + t - t * t + z - t * z - z * z - x * (5 + t + z))) (-(x * (-1 + x + 2 * y + z))) y
    hd; ring1
  · show HasDerivAt (fun t : ℝ => x * (1 + 5 * x * x + y - y * y + t - y * t - t * t - x * (5 + y + t))) (-(x * (-1 + x + y + 2 * z))) z
    hd; ring1

private theorem tet3_delta4 (h : s5 ^ 2 = 5) (j : Fin 20) : tet3 s5 (tet3Node ((5 - s5) / 10) ((5 + s5) / 10) j 0) (tet3Node ((5 - s5) / 10) ((5 + s5) / 10) j 1) (tet3Node ((5 - s5) / 10) ((5 + s5) / 10) j 2) 4 = if (4 : Fin 20) = j then 1 else 0 := by
  fin_cases j
  · show (5 * 0 * (-1 + 0 + 0 + 0) * (-1 - s5 + (3 + s5) * 0 + 2 * s5 * 0 + (3 + s5) * 0)) / 2 = (0 : ℝ)
    ring1
  · show (5 * 0 * (-1 + ((5 - s5) / 10) + 0 + 0) * (-1 - s5 + (3 + s5) * ((5 - s5) / 10) + 2 * s5 * 0 + (3 + s5) * 0)) / 2 = (0 : ℝ)
    ring1
  · show (5 * 0 * (-1 + ((5 + s5) / 10) + 0 + 0) * (-1 - s5 + (3 + s5) * ((5 + s5) / 10) + 2 * s5 * 0 + (3 + s5) * 0)) / 2 = (0 : ℝ)
    ring1
  · show (5 * 0 * (-1 + 1 + 0 + 0) * (-1 - s5 + (3 + s5) * 1 + 2 * s5 * 0 + (3 + s5) * 0)) / 2 = (0 : ℝ)
    ring1
  · show (5 * ((5 - s5) / 10) * (-1 + 0 + ((5 - s5) / 10) + 0) * (-1 - s5 + (3 + s5) * 0 + 2 * s5 * ((5 - s5) / 10) + (3 + s5) * 0)) / 2 = (1 : ℝ)
    linear_combination ((3/40) + (-1/200) * s5 ^ 2) * h
  · show (5 * (1 / 3) * (-1 + (1 / 3) + (1 / 3) + 0) * (-1 - s5 + (3 + s5) * (1 / 3) + 2 * s5 * (1 / 3) + (3 + s5) * 0)) / 2 = (0 : ℝ)
    ring1
  · show (5 * ((5 - s5) / 10) * (-1 + ((5 + s5) / 10) + ((5 - s5) / 10) + 0) * (-1 - s5 + (3 + s5) * ((5 + s5) / 10) + 2 * s5 * ((5 - s5) / 10) + (3 + s5) * 0)) / 2 = (0 : ℝ)
    ring1
  · show (5 * ((5 + s5) / 10) * (-1 + 0 + ((5 + s5) / 10) + 0) * (-1 - s5 + (3 + s5) * 0 + 2 * s5 * ((5 + s5) / 10) + (3 + s5) * 0)) / 2 = (0 : ℝ)
    linear_combination ((-1/8) + (1/200) * s5 ^ 2) * h
  · show (5 * ((5 + s5) / 10) * (-1 + ((5 - s5) / 10) + ((5 + s5) / 10) + 0) * (-1 - s5 + (3 + s5) * ((5 - s5) / 10) + 2 * s5 * ((5 + s5) / 10) + (3 + s5) * 0)) / 2 = (0 : ℝ)
    ring1
  · show (5 * 1 * (-1 + 0 + 1 + 0) * (-1 - s5 + (3 + s5) * 0 + 2 * s5 * 1 + (3 + s5) * 0)) / 2 = (0 : ℝ)
    ring1
  · show (5 * 0 * (-1 + 0 + 0 + ((5 - s5) / 10)) * (-1 - s5 + (3 + s5) * 0 + 2 * s5 * 0 + (3 + s5) * ((5 - s5) / 10))) / 2 = (0 : ℝ)
    ring1
  · show (5 * 0 * (-1 + (1 / 3) + 0 + (1 / 3)) * (-1 - s5 + (3 + s5) * (1 / 3) + 2 * s5 * 0 + (3 + s5) * (1 / 3))) / 2 = (0 : ℝ)
    ring1
  · show (5 * 0 * (-1 + ((5 + s5) / 10) + 0 + ((5 - s5) / 10)) * (-1 - s5 + (3 + s5) * ((5 + s5) / 10) + 2 * s5 * 0 + (3 + s5) * ((5 - s5) / 10))) / 2 = (0 : ℝ)
    ring1
  · show (5 * (1 / 3) * (-1 + 0 + (1 / 3) + (1 / 3)) * (-1 - s5 + (3 + s5) * 0 + 2 * s5 * (1 / 3) + (3 + s5) * (1 / 3))) / 2 = (0 : ℝ)
    ring1
  · show (5 * (1 / 3) * (-1 + (1 / 3) + (1 / 3) + (1 / 3)) * (-1 - s5 + (3 + s5) * (1 / 3) + 2 * s5 * (1 / 3) + (3 + s5) * (1 / 3))) / 2 = (0 : ℝ)
    ring1
  · show (5 * ((5 + s5) / 10) * (-1 + 0 + ((5 + s5) / 10) + ((5 - s5) / 10)) * (-1 - s5 + (3 + s5) * 0 + 2 * s5 * ((5 + s5) / 10) + (3 + s5) * ((5 - s5) / 10))) / 2 = (0 : ℝ)
    ring1
  · show (5 * 0 * (-1 + 0 + 0 + ((5 + s5) / 10)) * (-1 - s5 + (3 + s5) * 0 + 2 * s5 * 0 + (3 + s5) * ((5 + s5) / 10))) / 2 = (0 : ℝ)
    ring1
  · show (5 * 0 * (-1 + ((5 - s5) / 10) + 0 + ((5 + s5) / 10)) * (-1 - s5 + (3 + s5) * ((5 - s5) / 10) + 2 * s5 * 0 + (3 + s5) * ((5 + s5) / 10))) / 2 = (0 : ℝ)
    ring1
  · show (5 * ((5 - s5) / 10) * (-1 + 0 + ((5 - s5) / 10) + ((5 + s5) / 10)) * (-1 - s5 + (3 + s5) * 0 + 2 * s5 * ((5 - s5) / 10) + (3 + s5) * ((5 + s5) / 10))) / 2 = (0 : ℝ)
    ring1
  · show (5 * 0 * (-1 + 0 + 0 + 1) * (-1 - s5 + (3 + s5) * 0 + 2 * s5 * 0 + (3 + s5) * 1)) / 2 = (0 : ℝ)
    ring1

private theorem tet3_grad4 (x y z : ℝ) :
    HasDerivAt (fun t => tet3 s5 t y z 4) (tet3Grad s5 x y z 4 0) x ∧
      HasDerivAt (fun t => tet3 s5 x t z 4) (tet3Grad s5 x y z 4 1) y ∧
      HasDerivAt (fun t => tet3 s5 x y t 4) (tet3Grad s5 x y z 4 2) z := by
  refine ⟨?_, ?_, ?_⟩
  · show HasDerivAt (fun t : ℝ => (5 * y * (-1 + t + y + z) * (-1 - s5 + (3 + s5) * t + 2 * s5 * y + (3 + s5) * z)) / 2) ((5 * y * (-2 * (2 + s5) + 2 * (3 + s5) * x + 3 * (1 + s5) * y + 2 * (3 + s5) * z)) / 2) x
    hd; ring1
  · show HasDerivAt (fun t : ℝ => (5 * t * (-1 + x + t + z) * (-1 - s5 + (3 + s5) * x + 2 * s5 * t + (3 + s5) * z)) / 2) (15 * s5 * y * y + 5 * y * (-1 - 3 * s5 + 3 * (1 + s5) * x + 3 * (1 + s5) * z) + (5 * (-1 + x + z) * (-1 - s5 + (3 + s5) * x + (3 + s5) * z)) / 2) y
    hd; ring1
  · show HasDerivAt (fun t : ℝ => (5 * y * (-1 + x + y + t) * (-1 - s5 + (3 + s5) * x + 2 * s5 * y + (3 + s5) * t)) / 2) ((5 * y * (-2 * (2 + s5) + 2 * (3 + s5) * x + 3 * (1 + s5) * y + 2 * (3 + s5) * z)) / 2) z
    hd; ring1

private theorem tet3_delta5 (h : s5 ^ 2 = 5) (j : Fin 20) : tet3 s5 (tet3Node ((5 - s5) / 10) ((5 + s5) / 10) j 0) (tet3Node ((5 - s5) / 10) ((5 + s5) / 10) j 1) (tet3Node ((5 - s5) / 10) ((5 + s5) / 10) j 2) 5 = if (5 : Fin 20) = j then 1 else 0 := by
  fin_cases j
  · show -27 * 0 * 0 * (-1 + 0 + 0 + 0) = (0 : ℝ)
    ring1
  · show -27 * ((5 - s5) / 10) * 0 * (-1 + ((5 - s5) / 10) + 0 + 0) = (0 : ℝ)
    ring1
  · show -27 * ((5 + s5) / 10) * 0 * (-1 + ((5 + s5) / 10) + 0 + 0) = (0 : ℝ)
    ring1
  · show -27 * 1 * 0 * (-1 + 1 + 0 + 0) = (0 : ℝ)
    ring1
  · show -27 * 0 * ((5 - s5) / 10) * (-1 + 0 + ((5 - s5) / 10) + 0) = (0 : ℝ)
    ring1
  · show -27 * (1 / 3) * (1 / 3) * (-1 + (1 / 3) + (1 / 3) + 0) = (1 : ℝ)
    ring1
  · show -27 * ((5 + s5) / 10) * ((5 - s5) / 10) * (-1 + ((5 + s5) / 10) + ((5 - s5) / 10) + 0) = (0 : ℝ)
    ring1
  · show -27 * 0 * ((5 + s5) / 10) * (-1 + 0 + ((5 + s5) / 10) + 0) = (0 : ℝ)
    ring1
  · show -27 * ((5 - s5) / 10) * ((5 + s5) / 10) * (-1 + ((5 - s5) / 10) + ((5 + s5) / 10) + 0) = (0 : ℝ)
    ring1
  · show -27 * 0 * 1 * (-1 + 0 + 1 + 0) = (0 : ℝ)
    ring1
  · show -27 * 0 * 0 * (-1 + 0 + 0 + ((5 - s5) / 10)) = (0 : ℝ)
    ring1
  · show -27 * (1 / 3) * 0 * (-1 + (1 / 3) + 0 + (1 / 3)) = (0 : ℝ)
    ring1
  · show -27 * ((5 + s5) / 10) * 0 * (-1 + ((5 + s5) / 10) + 0 + ((5 - s5) / 10)) = (0 : ℝ)
    ring1
  · show -27 * 0 * (1 / 3) * (-1 + 0 + (1 / 3) + (1 / 3)) = (0 : ℝ)
    ring1
  · show -27 * (1 / 3) * (1 / 3) * (-1 + (1 / 3) + (1 / 3) + (1 / 3)) = (0 : ℝ)
    ring1
  · show -27 * 0 * ((5 + s5) / 10) * (-1 + 0 + ((5 + s5) / 10) + ((5 - s5) / 10)) = (0 : ℝ)
    ring1
  · show -27 * 0 * 0 * (-1 + 0 + 0 + ((5 + s5) / 10)) = (0 : ℝ)
    ring1
  · show -27 * ((5 - s5) / 10) * 0 * (-1 + ((5 - s5) / 10) + 0 + ((5 + s5) / 10)) = (0 : ℝ)
    ring1
  · show -27 * 0 * ((5 - s5) / 10) * (-1 + 0 + ((5 - s5) / 10) + ((5 + s5) / 10)) = (0 : ℝ)
    ring1
  · show -27 * 0 * 0 * (-1 + 0 + 0 + 1) = (0 : ℝ)
    ring1

private theorem tet3_grad5 (x y z : ℝ) :
    HasDerivAt (fun t => tet3 s5 t y z 5) (tet3Grad s5 x y z 5 0) x ∧
      HasDerivAt (fun t => tet3 s5 x t z 5) (tet3Grad s5 x y z 5 1) y ∧
      HasDerivAt (fun t => tet3 s5 x y t 5) (tet3Grad s5 x y z 5 2) z := by
  refine ⟨?_, ?_, ?_⟩
  · show HasDerivAt (fun t : ℝ => -27 * t * y * (-1 + t + y + z)) (-27 * y * (-1 + 2 * x + y + z)) x
    hd; ring1
  · show HasDerivAt (fun t : ℝ => -27 * x * t * (-1 + x + t + z)) (-27 * x * (-1 + x + 2 * y + z)) y
    hd; ring1
  · show HasDerivAt (fun t : ℝ => -27 * x * y * (-1 + x + y + t)) (-27 * x * y) z
    hd; ring1

private theorem tet3_delta6 (h : s5 ^ 2 = 5) (j : Fin 20) : tet3 s5 (tet3Node ((5 - s5) / 10) ((5 + s5) / 10) j 0) (tet3Node ((5 - s5) / 10) ((5 + s5) / 10) j 1) (tet3Node ((5 - s5) / 10) ((5 + s5) / 10) j 2) 6 = if (6 : Fin 20) = j then 1 else 0 := by
  fin_cases j
  · show (5 * 0 * 0 * (-2 + (3 + s5) * 0 - (-3 + s5) * 0)) / 2 = (0 : ℝ)
    ring1
  · show (5 * ((5 - s5) / 10) * 0 * (-2 + (3 + s5) * ((5 - s5) / 10) - (-3 + s5) * 0)) / 2 = (0 : ℝ)
    ring1
  · show (5 * ((5 + s5) / 10) * 0 * (-2 + (3 + s5) * ((5 + s5) / 10) - (-3 + s5) * 0)) / 2 = (0 : ℝ)
    ring1
  · show (5 * 1 * 0 * (-2 + (3 + s5) * 1 - (-3 + s5) * 0)) / 2 = (0 : ℝ)
    ring1
  · show (5 * 0 * ((5 - s5) / 10) * (-2 + (3 + s5) * 0 - (-3 + s5) * ((5 - s5) / 10))) / 2 = (0 : ℝ)
    ring1
  · show (5 * (1 / 3) * (1 / 3) * (-2 + (3 + s5) * (1 / 3) - (-3 + s5) * (1 / 3))) / 2 = (0 : ℝ)
    ring1
  · show (5 * ((5 + s5) / 10) * ((5 - s5) / 10) * (-2 + (3 + s5) * ((5 + s5) / 10) - (-3 + s5) * ((5 - s5) / 10))) / 2 = (1 : ℝ)
    linear_combination ((3/40) + (-1/200) * s5 ^ 2) * h
  · show (5 * 0 * ((5 + s5) / 10) * (-2 + (3 + s5) * 0 - (-3 + s5) * ((5 + s5) / 10))) / 2 = (0 : ℝ)
    ring1
  · show (5 * ((5 - s5) / 10) * ((5 + s5) / 10) * (-2 + (3 + s5) * ((5 - s5) / 10) - (-3 + s5) * ((5 + s5) / 10))) / 2 = (0 : ℝ)
    linear_combination ((-1/8) + (1/200) * s5 ^ 2) * h
  · show (5 * 0 * 1 * (-2 + (3 + s5) * 0 - (-3 + s5) * 1)) / 2 = (0 : ℝ)
    ring1
  · show (5 * 0 * 0 * (-2 + (3 + s5) * 0 - (-3 + s5) * 0)) / 2 = (0 : ℝ)
    ring1
  · show (5 * (1 / 3) * 0 * (-2 + (3 + s5) * (1 / 3) - (-3 + s5) * 0)) / 2 = (0 : ℝ)
    ring1
  · show (5 * ((5 + s5) / 10) * 0 * (-2 + (3 + s5) * ((5 + s5) / 10) - (-3 + s5) * 0)) / 2 = (0 : ℝ)
    ring1
  · show (5 * 0 * (1 / 3) * (-2 + (3 + s5) * 0 - (-3 + s5) * (1 / 3))) / 2 = (0 : ℝ)
    ring1
  · show (5 * (1 / 3) * (1 / 3) * (-2 + (3 + s5) * (1 / 3) - (-3 + s5) * (1 / 3))) / 2 = (0 : ℝ)
    ring1
  · show (5 * 0 * ((5 + s5) / 10) * (-2 + (3 + s5) * 0 - (-3 + s5) * ((5 + s5) / 10))) / 2 = (0 : ℝ)
    ring1
  · show (5 * 0 * 0 * (-2 + (3 + s5) * 0 - (-3 + s5) * 0)) / 2 = (0 : ℝ)
    ring1
  · show (5 * ((5 - s5) / 10) * 0 * (-2 + (3 + s5) * ((5 - s5) / 10) - (-3 + s5) * 0)) / 2 = (0 : ℝ)
    ring1
  · show (5 * 0 * ((5 - s5) / 10) * (-2 + (3 + s5) * 0 - (-3 + s5) * ((5 - s5) / 10))) / 2 = (0 : ℝ)
    ring1
  · show (5 * 0 * 0 * (-2 + (3 + s5) * 0 - (-3 + s5) * 0)) / 2 = (0 : ℝ)
    ring1

private theorem tet3_grad6 (x y z : ℝ) :
    HasDerivAt (fun t => tet3 s5 t y z 6) (tet3Grad s5 x y z 6 0) x ∧
      HasDerivAt (fun t => tet3 s5 x t z 6) (tet3Grad s5 x y z 6 1) y ∧
      HasDerivAt (fun t => tet3 s5 x y t 6) (tet3Grad s5 x y z 6 2) z := by
  refine ⟨?_, ?_, ?_⟩
  · show HasDerivAt (fun t : ℝ => (5 * t * y * (-2 + (3 + s5) * t - (-3 + s5) * y)) / 2) ((-5 * y * (2 - 2 * (3 + s5) * x + (-3 + s5) * y)) / 2) x
    hd; ring1
  · show HasDerivAt (fun t : ℝ => (5 * x * t * (-2 + (3 + s5) * x - (-3 + s5) * t)) / 2) ((5 * x * (-2 + (3 + s5) * x - 2 * (-3 + s5) * y)) / 2) y
    hd; ring1
  · show HasDerivAt (fun t : ℝ => (5 * x * y * (-2 + (3 + s5) * x - (-3 + s5) * y)) / 2) (0) z
    hd; ring1

private theorem tet3_delta7 (h : s5 ^ 2 = 5) (j : Fin 20) : tet3 s5 (tet3Node ((5 - s5) / 10) ((5 + s5) / 10) j 0) (tet3Node ((5 - s5) / 10) ((5 + s5) / 10) j 1) (tet3Node ((5 - s5) / 10) ((5 + s5) / 10) j 2) 7 = if (7 : Fin 20) = j then 1 else 0 := by
  fin_cases j
  · show (-5 * 0 * (-1 + 0 + 0 + 0) * (1 - s5 + (-3 + s5) * 0 + 2 * s5 * 0 + (-3 + s5) * 0)) / 2 = (0 : ℝ)
    ring1
  · show (-5 * 0 * (-1 + ((5 - s5) / 10) + 0 + 0) * (1 - s5 + (-3 + s5) * ((5 - s5) / 10) + 2 * s5 * 0 + (-3 + s5) * 0)) / 2 = (0 : ℝ)
    ring1
  · show (-5 * 0 * (-1 + ((5 + s5) / 10) + 0 + 0) * (1 - s5 + (-3 + s5) * ((5 + s5) / 10) + 2 * s5 * 0 + (-3 + s5) * 0)) / 2 = (0 : ℝ)
    ring1
  · show (-5 * 0 * (-1 + 1 + 0 + 0) * (1 - s5 + (-3 + s5) * 1 + 2 * s5 * 0 + (-3 + s5) * 0)) / 2 = (0 : ℝ)
    ring1
  · show (-5 * ((5 - s5) / 10) * (-1 + 0 + ((5 - s5) / 10) + 0) * (1 - s5 + (-3 + s5) * 0 + 2 * s5 * ((5 - s5) / 10) + (-3 + s5) * 0)) / 2 = (0 : ℝ)
    linear_combination ((-1/8) + (1/200) * s5 ^ 2) * h
  · show (-5 * (1 / 3) * (-1 + (1 / 3) + (1 / 3) + 0) * (1 - s5 + (-3 + s5) * (1 / 3) + 2 * s5 * (1 / 3) + (-3 + s5) * 0)) / 2 = (0 : ℝ)
    ring1
  · show (-5 * ((5 - s5) / 10) * (-1 + ((5 + s5) / 10) + ((5 - s5) / 10) + 0) * (1 - s5 + (-3 + s5) * ((5 + s5) / 10) + 2 * s5 * ((5 - s5) / 10) + (-3 + s5) * 0)) / 2 = (0 : ℝ)
    ring1
  · show (-5 * ((5 + s5) / 10) * (-1 + 0 + ((5 + s5) / 10) + 0) * (1 - s5 + (-3 + s5) * 0 + 2 * s5 * ((5 + s5) / 10) + (-3 + s5) * 0)) / 2 = (1 : ℝ)
    linear_combination ((3/40) + (-1/200) * s5 ^ 2) * h
  · show (-5 * ((5 + s5) / 10) * (-1 + ((5 - s5) / 10) + ((5 + s5) / 10) + 0) * (1 - s5 + (-3 + s5) * ((5 - s5) / 10) + 2 * s5 * ((5 + s5) / 10) + (-3 + s5) * 0)) / 2 = (0 : ℝ)
    ring1
  · show (-5 * 1 * (-1 + 0 + 1 + 0) * (1 - s5 + (-3 + s5) * 0 + 2 * s5 * 1 + (-3 + s5) * 0)) / 2 = (0 : ℝ)
    ring1
  · show (-5 * 0 * (-1 + 0 + 0 + ((5 - s5) / 10)) * (1 - s5 + (-3 + s5) * 0 + 2 * s5 * 0 + (-3 + s5) * ((5 - s5) / 10))) / 2 = (0 : ℝ)
    ring1
  · show (-5 * 0 * (-1 + (1 / 3) + 0 + (1 / 3)) * (1 - s5 + (-3 + s5) * (1 / 3) + 2 * s5 * 0 + (-3 + s5) * (1 / 3))) / 2 = (0 : ℝ)
    ring1
  · show (-5 * 0 * (-1 + ((5 + s5) / 10) + 0 + ((5 - s5) / 10)) * (1 - s5 + (-3 + s5) * ((5 + s5) / 10) + 2 * s5 * 0 + (-3 + s5) * ((5 - s5) / 10))) / 2 = (0 : ℝ)
    ring1
  · show (-5 * (1 / 3) * (-1 + 0 + (1 / 3) + (1 / 3)) * (1 - s5 + (-3 + s5) * 0 + 2 * s5 * (1 / 3) + (-3 + s5) * (1 / 3))) / 2 = (0 : ℝ)
    ring1
  · show (-5 * (1 / 3) * (-1 + (1 / 3) + (1 / 3) + (1 / 3)) * (1 - s5 + (-3 + s5) * (1 / 3) + 2 * s5 * (1 / 3) + (-3 + s5) * (1 / 3))) / 2 = (0 : ℝ)
    ring1
  · show (-5 * ((5 + s5) / 10) * (-1 + 0 + ((5 + s5) / 10) + ((5 - s5) / 10)) * (1 - s5 + (-3 + s5) * 0 + 2 * s5 * ((5 + s5) / 10) + (-3 + s5) * ((5 - s5) / 10))) / 2 = (0 : ℝ)
    ring1
  · show (-5 * 0 * (-1 + 0 + 0 + ((5 + s5) / 10)) * (1 - s5 + (-3 + s5) * 0 + 2 * s5 * 0 + (-3 + s5) * ((5 + s5) / 10))) / 2 = (0 : ℝ)
    ring1
  · show (-5 * 0 * (-1 + ((5 - s5) / 10) + 0 + ((5 + s5) / 10)) * (1 - s5 + (-3 + s5) * ((5 - s5) / 10) + 2 * s5 * 0 + (-3 + s5) * ((5 + s5) / 10))) / 2 = (0 : ℝ)
    ring1
  · show (-5 * ((5 - s5) / 10) * (-1 + 0 + ((5 - s5) / 10) + ((5 + s5) / 10)) * (1 - s5 + (-3 + s5) * 0 + 2 * s5 * ((5 - s5) / 10) + (-3 + s5) * ((5 + s5) / 10))) / 2 = (0 : ℝ)
    ring1
  · show (-5 * 0 * (-1 + 0 + 0 + 1) * (1 - s5 + (-3 + s5) * 0 + 2 * s5 * 0 + (-3 + s5) * 1)) / 2 = (0 : ℝ)
    ring1

private theorem tet3_grad7 (x y z : ℝ) :
    HasDerivAt (fun t => tet3 s5 t y z 7) (tet3Grad s5 x y z 7 0) x ∧
      HasDerivAt (fun t => tet3 s5 x t z 7) (tet3Grad s5 x y z 7 1) y ∧
      HasDerivAt (fun t => tet3 s5 x y t 7) (tet3Grad s5 x y z 7 2) z := by
  refine ⟨?_, ?_, ?_⟩
  · show HasDerivAt (fun t : ℝ => (-5 * y * (-1 + t + y + z) * (1 - s5 + (-3 + s5) * t + 2 * s5 * y + (-3 + s5) * z)) / 2) ((-5 * y * (4 - 2 * s5 + 2 * (-3 + s5) * x + 3 * (-1 + s5) * y + 2 * (-3 + s5) * z)) / 2) x
    hd; ring1
  · show HasDerivAt (fun t : ℝ => (-5 * t * (-1 + x + t + z) * (1 - s5 + (-3 + s5) * x + 2 * s5 * t + (-3 + s5) * z)) / 2) (-15 * s5 * y * y - (5 * (-1 + x + z) * (1 - s5 + (-3 + s5) * x + (-3 + s5) * z)) / 2 - 5 * y * (1 - 3 * s5 + 3 * (-1 + s5) * x + 3 * (-1 + s5) * z)) y
    hd; ring1
  · show HasDerivAt (fun t : ℝ => (-5 * y * (-1 + x + y + t) * (1 - s5 + (-3 + s5) * x + 2 * s5 * y + (-3 + s5) * t)) / 2) ((-5 * y * (4 - 2 * s5 + 2 * (-3 + s5) * x + 3 * (-1 + s5) * y + 2 * (-3 + s5) * z)) / 2) z
    hd; ring1

private theorem tet3_delta8 (h : s5 ^ 2 = 5) (j : Fin 20) : tet3 s5 (tet3Node ((5 - s5) / 10) ((5 + s5) / 10) j 0) (tet3Node ((5 - s5) / 10) ((5 + s5) / 10) j 1) (tet3Node ((5 - s5) / 10) ((5 + s5) / 10) j 2) 8 = if (8 : Fin 20) = j then 1 else 0 := by
  fin_cases j
  · show (-5 * 0 * 0 * (2 + (-3 + s5) * 0 - (3 + s5) * 0)) / 2 = (0 : ℝ)
    ring1
  · show (-5 * ((5 - s5) / 10) * 0 * (2 + (-3 + s5) * ((5 - s5) / 10) - (3 + s5) * 0)) / 2 = (0 : ℝ)
    ring1
  · show (-5 * ((5 + s5) / 10) * 0 * (2 + (-3 + s5) * ((5 + s5) / 10) - (3 + s5) * 0)) / 2 = (0 : ℝ)
    ring1
  · show (-5 * 1 * 0 * (2 + (-3 + s5) * 1 - (3 + s5) * 0)) / 2 = (0 : ℝ)
    ring1
  · show (-5 * 0 * ((5 - s5) / 10) * (2 + (-3 + s5) * 0 - (3 + s5) * ((5 - s5) / 10))) / 2 = (0 : ℝ)
    ring1
  · show (-5 * (1 / 3) * (1 / 3) * (2 + (-3 + s5) * (1 / 3) - (3 + s5) * (1 / 3))) / 2 = (0 : ℝ)
    ring1
  · show (-5 * ((5 + s5) / 10) * ((5 - s5) / 10) * (2 + (-3 + s5) * ((5 + s5) / 10) - (3 + s5) * ((5 - s5) / 10))) / 2 = (0 : ℝ)
    linear_combination ((-1/8) + (1/200) * s5 ^ 2) * h
  · show (-5 * 0 * ((5 + s5) / 10) * (2 + (-3 + s5) * 0 - (3 + s5) * ((5 + s5) / 10))) / 2 = (0 : ℝ)
    ring1
  · show (-5 * ((5 - s5) / 10) * ((5 + s5) / 10) * (2 + (-3 + s5) * ((5 - s5) / 10) - (3 + s5) * ((5 + s5) / 10))) / 2 = (1 : ℝ)
    linear_combination ((3/40) + (-1/200) * s5 ^ 2) * h
  · show (-5 * 0 * 1 * (2 + (-3 + s5) * 0 - (3 + s5) * 1)) / 2 = (0 : ℝ)
    ring1
  · show (-5 * 0 * 0 * (2 + (-3 + s5) * 0 - (3 + s5) * 0)) / 2 = (0 : ℝ)
    ring1
  · show (-5 * (1 / 3) * 0 * (2 + (-3 + s5) * (1 / 3) - (3 + s5) * 0)) / 2 = (0 : ℝ)
    ring1
  · show (-5 * ((5 + s5) / 10) * 0 * (2 + (-3 + s5) * ((5 + s5) / 10) - (3 + s5) * 0)) / 2 = (0 : ℝ)
    ring1
  · show (-5 * 0 * (1 / 3) * (2 + (-3 + s5) * 0 - (3 + s5) * (1 / 3))) / 2 = (0 : ℝ)
    ring1
  · show (-5 * (1 / 3) * (1 / 3) * (2 + (-3 + s5) * (1 / 3) - (3 + s5) * (1 / 3))) / 2 = (0 : ℝ)
    ring1
  · show (-5 * 0 * ((5 + s5) / 10) * (2 + (-3 + s5) * 0 - (3 + s5) * ((5 + s5) / 10))) / 2 = (0 : ℝ)
    ring1
  · show (-5 * 0 * 0 * (2 + (-3 + s5) * 0 - (3 + s5) * 0)) / 2 = (0 : ℝ)
    ring1
  · show (-5 * ((5 - s5) / 10) * 0 * (2 + (-3 + s5) * ((5 - s5) / 10) - (3 + s5) * 0)) / 2 = (0 : ℝ)
    ring1
  · show (-5 * 0 * ((5 - s5) / 10) * (2 + (-3 + s5) * 0 - (3 + s5) * ((5 - s5) / 10))) / 2 = (0 : ℝ)
    ring1
  · show (-5 * 0 * 0 * (2 + (-3 + s5) * 0 - (3 + s5) * 0)) / 2 = (0 : ℝ)
    ring1

private theorem tet3_grad8 (x y z : ℝ) :
    HasDerivAt (fun t => tet3 s5 t y z 8) (tet3Grad s5 x y z 8 0) x ∧
      HasDerivAt (fun t => tet3 s5 x t z 8) (tet3Grad s5 x y z 8 1) y ∧
      HasDerivAt (fun t => tet3 s5 x y t 8) (tet3Grad s5 x y z 8 2) z := by
  refine ⟨?_, ?_, ?_⟩
  · show HasDerivAt (fun t : ℝ => (-5 * t * y * (2 + (-3 + s5) * t - (3 + s5) * y)) / 2) ((5 * y * (-2 - 2 * (-3 + s5) * x + (3 + s5) * y)) / 2) x
    hd; ring1
  · show HasDerivAt (fun t : ℝ => (-5 * x * t * (2 + (-3 + s5) * x - (3 + s5) * t)) / 2) ((-5 * x * (2 + (-3 + s5) * x - 2 * (3 + s5) * y)) / 2) y
    hd; ring1
  · show HasDerivAt (fun t : ℝ => (-5 * x * y * (2 + (-3 + s5) * x - (3 + s5) * y)) / 2) (0) z
    hd; ring1

private theorem tet3_delta9 (h : s5 ^ 2 = 5) (j : Fin 20) : tet3 s5 (tet3Node ((5 - s5) / 10) ((5 + s5) / 10) j 0) (tet3Node ((5 - s5) / 10) ((5 + s5) / 10) j 1) (tet3Node ((5 - s5) / 10) ((5 + s5) / 10) j 2) 9 = if (9 : Fin 20) = j then 1 else 0 := by
  fin_cases j
  · show 0 * (1 - 0 * 0 + 5 * 0 * 0 + 0 - 0 * 0 - 0 * (5 + 0) - 0 * (-1 + 0 + 0)) = (0 : ℝ)
    ring1
  · show 0 * (1 - ((5 - s5) / 10) * ((5 - s5) / 10) + 5 * 0 * 0 + 0 - 0 * 0 - 0 * (5 + 0) - ((5 - s5) / 10) * (-1 + 0 + 0)) = (0 : ℝ)
    ring1
  · show 0 * (1 - ((5 + s5) / 10) * ((5 + s5) / 10) + 5 * 0 * 0 + 0 - 0 * 0 - 0 * (5 + 0) - ((5 + s5) / 10) * (-1 + 0 + 0)) = (0 : ℝ)
    ring1
  · show 0 * (1 - 1 * 1 + 5 * 0 * 0 + 0 - 0 * 0 - 0 * (5 + 0) - 1 * (-1 + 0 + 0)) = (0 : ℝ)
    ring1
  · show ((5 - s5) / 10) * (1 - 0 * 0 + 5 * ((5 - s5) / 10) * ((5 - s5) / 10) + 0 - 0 * 0 - ((5 - s5) / 10) * (5 + 0) - 0 * (-1 + ((5 - s5) / 10) + 0)) = (0 : ℝ)
    linear_combination ((1/40) + (-1/200) * s5 ^ 1) * h
  · show (1 / 3) * (1 - (1 / 3) * (1 / 3) + 5 * (1 / 3) * (1 / 3) + 0 - 0 * 0 - (1 / 3) * (5 + 0) - (1 / 3) * (-1 + (1 / 3) + 0)) = (0 : ℝ)
    ring1
  · show ((5 - s5) / 10) * (1 - ((5 + s5) / 10) * ((5 + s5) / 10) + 5 * ((5 - s5) / 10) * ((5 - s5) / 10) + 0 - 0 * 0 - ((5 - s5) / 10) * (5 + 0) - ((5 + s5) / 10) * (-1 + ((5 - s5) / 10) + 0)) = (0 : ℝ)
    linear_combination ((1/40) + (-1/200) * s5 ^ 1) * h
  · show ((5 + s5) / 10) * (1 - 0 * 0 + 5 * ((5 + s5) / 10) * ((5 + s5) / 10) + 0 - 0 * 0 - ((5 + s5) / 10) * (5 + 0) - 0 * (-1 + ((5 + s5) / 10) + 0)) = (0 : ℝ)
    linear_combination ((1/40) + (1/200) * s5 ^ 1) * h
  · show ((5 + s5) / 10) * (1 - ((5 - s5) / 10) * ((5 - s5) / 10) + 5 * ((5 + s5) / 10) * ((5 + s5) / 10) + 0 - 0 * 0 - ((5 + s5) / 10) * (5 + 0) - ((5 - s5) / 10) * (-1 + ((5 + s5) / 10) + 0)) = (0 : ℝ)
    linear_combination ((1/40) + (1/200) * s5 ^ 1) * h
  · show 1 * (1 - 0 * 0 + 5 * 1 * 1 + 0 - 0 * 0 - 1 * (5 + 0) - 0 * (-1 + 1 + 0)) = (1 : ℝ)
    ring1
  · show 0 * (1 - 0 * 0 + 5 * 0 * 0 + ((5 - s5) / 10) - ((5 - s5) / 10) * ((5 - s5) / 10) - 0 * (5 + ((5 - s5) / 10)) - 0 * (-1 + 0 + ((5 - s5) / 10))) = (0 : ℝ)
    ring1
  · show 0 * (1 - (1 / 3) * (1 / 3) + 5 * 0 * 0 + (1 / 3) - (1 / 3) * (1 / 3) - 0 * (5 + (1 / 3)) - (1 / 3) * (-1 + 0 + (1 / 3))) = (0 : ℝ)
    ring1
  · show 0 * (1 - ((5 + s5) / 10) * ((5 + s5) / 10) + 5 * 0 * 0 + ((5 - s5) / 10) - ((5 - s5) / 10) * ((5 - s5) / 10) - 0 * (5 + ((5 - s5) / 10)) - ((5 + s5) / 10) * (-1 + 0 + ((5 - s5) / 10))) = (0 : ℝ)
    ring1
  · show (1 / 3) * (1 - 0 * 0 + 5 * (1 / 3) * (1 / 3) + (1 / 3) - (1 / 3) * (1 / 3) - (1 / 3) * (5 + (1 / 3)) - 0 * (-1 + (1 / 3) + (1 / 3))) = (0 : ℝ)
    ring1
  · show (1 / 3) * (1 - (1 / 3) * (1 / 3) + 5 * (1 / 3) * (1 / 3) + (1 / 3) - (1 / 3) * (1 / 3) - (1 / 3) * (5 + (1 / 3)) - (1 / 3) * (-1 + (1 / 3) + (1 / 3))) = (0 : ℝ)
    ring1
  · show ((5 + s5) / 10) * (1 - 0 * 0 + 5 * ((5 + s5) / 10) * ((5 + s5) / 10) + ((5 - s5) / 10) - ((5 - s5) / 10) * ((5 - s5) / 10) - ((5 + s5) / 10) * (5 + ((5 - s5) / 10)) - 0 * (-1 + ((5 + s5) / 10) + ((5 - s5) / 10))) = (0 : ℝ)
    linear_combination ((1/40) + (1/200) * s5 ^ 1) * h
  · show 0 * (1 - 0 * 0 + 5 * 0 * 0 + ((5 + s5) / 10) - ((5 + s5) / 10) * ((5 + s5) / 10) - 0 * (5 + ((5 + s5) / 10)) - 0 * (-1 + 0 + ((5 + s5) / 10))) = (0 : ℝ)
    ring1
  · show 0 * (1 - ((5 - s5) / 10) * ((5 - s5) / 10) + 5 * 0 * 0 + ((5 + s5) / 10) - ((5 + s5) / 10) * ((5 + s5) / 10) - 0 * (5 + ((5 + s5) / 10)) - ((5 - s5) / 10) * (-1 + 0 + ((5 + s5) / 10))) = (0 : ℝ)
    ring1
  · show ((5 - s5) / 10) * (1 - 0 * 0 + 5 * ((5 - s5) / 10) * ((5 - s5) / 10) + ((5 + s5) / 10) - ((5 + s5) / 10) * ((5 + s5) / 10) - ((5 - s5) / 10) * (5 + ((5 + s5) / 10)) - 0 * (-1 + ((5 - s5) / 10) + ((5 + s5) / 10))) = (0 : ℝ)
    linear_combination ((1/40) + (-1/200) * s5 ^ 1) * h
  · show 0 * (1 - 0 * 0 + 5 * 0 * 0 + 1 - 1 * 1 - 0 * (5 + 1) - 0 * (-1 + 0 + 1)) = (0 : ℝ)
    ring1

private theorem tet3_grad9 (x y z : ℝ) :
    HasDerivAt (fun t => tet3 s5 t y z 9) (tet3Grad s5 x y z 9 0) x ∧
      HasDerivAt (fun t => tet3 s5 x t z 9) (tet3Grad s5 x y z 9 1) y ∧
      HasDerivAt (fun t => tet3 s5 x y t 9) (tet3Grad s5 x y z 9 2) z := by
  refine ⟨?_, ?_, ?_⟩
  · show HasDerivAt (fun t : ℝ => y * (1 - t * t + 5 * y * y + z - z * z - y * (5 + z) - t * (-1 + y + z))) (-(y * (-1 + 2 * x + y + z))) x
    hd; ring1
  · show HasDerivAt (fun t : ℝ => t * (1 - x * x + 5 * t * t + z - z * z - t * (5 + z) - x * (-1 + t + z))) (1 - x * x + 15 * y * y + z - z * z - 2 * y * (5 + z) - x * (-1 + 2 * y + z)) y
    hd; ring1
  · show HasDerivAt (fun t : ℝ => y * (1 - x * x + 5 * y * y + t - t * t - y * (5 + t) - x * (-1 + y + t))) (-(y * (-1 + x + y + 2 * z))) z
    hd; ring1

private theorem tet3_delta10 (h : s5 ^ 2 = 5) (j : Fin 20) : tet3 s5 (tet3Node ((5 - s5) / 10) ((5 + s5) / 10) j 0) (tet3Node ((5 - s5) / 10) ((5 + s5) / 10) j 1) (tet3Node ((5 - s5) / 10) ((5 + s5) / 10) j 2) 10 = if (10 : Fin 20) = j then 1 else 0 := by
  rw [tet3_10 h]
  fin_cases j
  · show 5 * 0 * (-1 + 0 + 0 + 0) * (-1 - s5 + (3 + s5) * 0 + (3 + s5) * 0 + 2 * s5 * 0) / 2 = (0 : ℝ)
    ring1
  · show 5 * 0 * (-1 + ((5 - s5) / 10) + 0 + 0) * (-1 - s5 + (3 + s5) * ((5 - s5) / 10) + (3 + s5) * 0 + 2 * s5 * 0) / 2 = (0 : ℝ)
    ring1
  · show 5 * 0 * (-1 + ((5 + s5) / 10) + 0 + 0) * (-1 - s5 + (3 + s5) * ((5 + s5) / 10) + (3 + s5) * 0 + 2 * s5 * 0) / 2 = (0 : ℝ)
    ring1
  · show 5 * 0 * (-1 + 1 + 0 + 0) * (-1 - s5 + (3 + s5) * 1 + (3 + s5) * 0 + 2 * s5 * 0) / 2 = (0 : ℝ)
    ring1
  · show 5 * 0 * (-1 + 0 + ((5 - s5) / 10) + 0) * (-1 - s5 + (3 + s5) * 0 + (3 + s5) * ((5 - s5) / 10) + 2 * s5 * 0) / 2 = (0 : ℝ)
    ring1
  · show 5 * 0 * (-1 + (1 / 3) + (1 / 3) + 0) * (-1 - s5 + (3 + s5) * (1 / 3) + (3 + s5) * (1 / 3) + 2 * s5 * 0) / 2 = (0 : ℝ)
    ring1
  · show 5 * 0 * (-1 + ((5 + s5) / 10) + ((5 - s5) / 10) + 0) * (-1 - s5 + (3 + s5) * ((5 + s5) / 10) + (3 + s5) * ((5 - s5) / 10) + 2 * s5 * 0) / 2 = (0 : ℝ)
    ring1
  · show 5 * 0 * (-1 + 0 + ((5 + s5) / 10) + 0) * (-1 - s5 + (3 + s5) * 0 + (3 + s5) * ((5 + s5) / 10) + 2 * s5 * 0) / 2 = (0 : ℝ)
    ring1
  · show 5 * 0 * (-1 + ((5 - s5) / 10) + ((5 + s5) / 10) + 0) * (-1 - s5 + (3 + s5) * ((5 - s5) / 10) + (3 + s5) * ((5 + s5) / 10) + 2 * s5 * 0) / 2 = (0 : ℝ)
    ring1
  · show 5 * 0 * (-1 + 0 + 1 + 0) * (-1 - s5 + (3 + s5) * 0 + (3 + s5) * 1 + 2 * s5 * 0) / 2 = (0 : ℝ)
    ring1
  · show 5 * ((5 - s5) / 10) * (-1 + 0 + 0 + ((5 - s5) / 10)) * (-1 - s5 + (3 + s5) * 0 + (3 + s5) * 0 + 2 * s5 * ((5 - s5) / 10)) / 2 = (1 : ℝ)
    linear_combination ((3/40) + (-1/200) * s5 ^ 2) * h
  · show 5 * (1 / 3) * (-1 + (1 / 3) + 0 + (1 / 3)) * (-1 - s5 + (3 + s5) * (1 / 3) + (3 + s5) * 0 + 2 * s5 * (1 / 3)) / 2 = (0 : ℝ)
    ring1
  · show 5 * ((5 - s5) / 10) * (-1 + ((5 + s5) / 10) + 0 + ((5 - s5) / 10)) * (-1 - s5 + (3 + s5) * ((5 + s5) / 10) + (3 + s5) * 0 + 2 * s5 * ((5 - s5) / 10)) / 2 = (0 : ℝ)
    ring1
  · show 5 * (1 / 3) * (-1 + 0 + (1 / 3) + (1 / 3)) * (-1 - s5 + (3 + s5) * 0 + (3 + s5) * (1 / 3) + 2 * s5 * (1 / 3)) / 2 = (0 : ℝ)
    ring1
  · show 5 * (1 / 3) * (-1 + (1 / 3) + (1 / 3) + (1 / 3)) * (-1 - s5 + (3 + s5) * (1 / 3) + (3 + s5) * (1 / 3) + 2 * s5 * (1 / 3)) / 2 = (0 : ℝ)
    ring1
  · show 5 * ((5 - s5) / 10) * (-1 + 0 + ((5 + s5) / 10) + ((5 - s5) / 10)) * (-1 - s5 + (3 + s5) * 0 + (3 + s5) * ((5 + s5) / 10) + 2 * s5 * ((5 - s5) / 10)) / 2 = (0 : ℝ)
    ring1
  · show 5 * ((5 + s5) / 10) * (-1 + 0 + 0 + ((5 + s5) / 10)) * (-1 - s5 + (3 + s5) * 0 + (3 + s5) * 0 + 2 * s5 * ((5 + s5) / 10)) / 2 = (0 : ℝ)
    linear_combination ((-1/8) + (1/200) * s5 ^ 2) * h
  · show 5 * ((5 + s5) / 10) * (-1 + ((5 - s5) / 10) + 0 + ((5 + s5) / 10)) * (-1 - s5 + (3 + s5) * ((5 - s5) / 10) + (3 + s5) * 0 + 2 * s5 * ((5 + s5) / 10)) / 2 = (0 : ℝ)
    ring1
  · show 5 * ((5 + s5) / 10) * (-1 + 0 + ((5 - s5) / 10) + ((5 + s5) / 10)) * (-1 - s5 + (3 + s5) * 0 + (3 + s5) * ((5 - s5) / 10) + 2 * s5 * ((5 + s5) / 10)) / 2 = (0 : ℝ)
    ring1
  · show 5 * 1 * (-1 + 0 + 0 + 1) * (-1 - s5 + (3 + s5) * 0 + (3 + s5) * 0 + 2 * s5 * 1) / 2 = (0 : ℝ)
    ring1

private theorem tet3_grad10 (h : s5 ^ 2 = 5) (x y z : ℝ) :
    HasDerivAt (fun t => tet3 s5 t y z 10) (tet3Grad s5 x y z 10 0) x ∧
      HasDerivAt (fun t => tet3 s5 x t z 10) (tet3Grad s5 x y z 10 1) y ∧
      HasDerivAt (fun t => tet3 s5 x y t 10) (tet3Grad s5 x y z 10 2) z := by
  simp only [tet3_10 h]
  refine ⟨?_, ?_, ?_⟩
  · show HasDerivAt (fun t : ℝ => 5 * z * (-1 + t + y + z) * (-1 - s5 + (3 + s5) * t + (3 + s5) * y + 2 * s5 * z) / 2) ((5 * z * (-2 * (2 + s5) + 2 * (3 + s5) * x + 2 * (3 + s5) * y + 3 * (1 + s5) * z)) / 2) x
    hd; ring1
  · show HasDerivAt (fun t : ℝ => 5 * z * (-1 + x + t + z) * (-1 - s5 + (3 + s5) * x + (3 + s5) * t + 2 * s5 * z) / 2) ((5 * z * (-2 * (2 + s5) + 2 * (3 + s5) * x + 2 * (3 + s5) * y + 3 * (1 + s5) * z)) / 2) y
    hd; ring1
  · show HasDerivAt (fun t : ℝ => 5 * t * (-1 + x + y + t) * (-1 - s5 + (3 + s5) * x + (3 + s5) * y + 2 * s5 * t) / 2) ((5 * (1 + s5 + (3 + s5) * x * x - 2 * (2 + s5) * y + (3 + s5) * y * y + 6 * (1 + s5) * y * z + 2 * z * (-1 - 3 * s5 + 3 * s5 * z) + 2 * x * (-2 - s5 + (3 + s5) * y + 3 * (1 + s5) * z))) / 2) z
    hd; ring1

private theorem tet3_delta11 (h : s5 ^ 2 = 5) (j : Fin 20) : tet3 s5 (tet3Node ((5 - s5) / 10) ((5 + s5) / 10) j 0) (tet3Node ((5 - s5) / 10) ((5 + s5) / 10) j 1) (tet3Node ((5 - s5) / 10) ((5 + s5) / 10) j 2) 11 = if (11 : Fin 20) = j then 1 else 0 := by
  fin_cases j
  · show -27 * 0 * 0 * (-1 + 0 + 0 + 0) = (0 : ℝ)
    ring1
  · show -27 * ((5 - s5) / 10) * 0 * (-1 + ((5 - s5) / 10) + 0 + 0) = (0 : ℝ)
    ring1
  · show -27 * ((5 + s5) / 10) * 0 * (-1 + ((5 + s5) / 10) + 0 + 0) = (0 : ℝ)
    ring1
  · show -27 * 1 * 0 * (-1 + 1 + 0 + 0) = (0 : ℝ)
    ring1
  · show -27 * 0 * 0 * (-1 + 0 + ((5 - s5) / 10) + 0) = (0 : ℝ)
    ring1
  · show -27 * (1 / 3) * 0 * (-1 + (1 / 3) + (1 / 3) + 0) = (0 : ℝ)
    ring1
  · show -27 * ((5 + s5) / 10) * 0 * (-1 + ((5 + s5) / 10) + ((5 - s5) / 10) + 0) = (0 : ℝ)
    ring1
  · show -27 * 0 * 0 * (-1 + 0 + ((5 + s5) / 10) + 0) = (0 : ℝ)
    ring1
  · show -27 * ((5 - s5) / 10) * 0 * (-1 + ((5 - s5) / 10) + ((5 + s5) / 10) + 0) = (0 : ℝ)
    ring1
  · show -27 * 0 * 0 * (-1 + 0 + 1 + 0) = (0 : ℝ)
    ring1
  · show -27 * 0 * ((5 - s5) / 10) * (-1 + 0 + 0 + ((5 - s5) / 10)) = (0 : ℝ)
    ring1
  · show -27 * (1 / 3) * (1 / 3) * (-1 + (1 / 3) + 0 + (1 / 3)) = (1 : ℝ)
    ring1
  · show -27 * ((5 + s5) / 10) * ((5 - s5) / 10) * (-1 + ((5 + s5) / 10) + 0 + ((5 - s5) / 10)) = (0 : ℝ)
    ring1
  · show -27 * 0 * (1 / 3) * (-1 + 0 + (1 / 3) + (1 / 3)) = (0 : ℝ)
    ring1
  · show -27 * (1 / 3) * (1 / 3) * (-1 + (1 / 3) + (1 / 3) + (1 / 3)) = (0 : ℝ)
    ring1
  · show -27 * 0 * ((5 - s5) / 10) * (-1 + 0 + ((5 + s5) / 10) + ((5 - s5) / 10)) = (0 : ℝ)
    ring1
  · show -27 * 0 * ((5 + s5) / 10) * (-1 + 0 + 0 + ((5 + s5) / 10)) = (0 : ℝ)
    ring1
  · show -27 * ((5 - s5) / 10) * ((5 + s5) / 10) * (-1 + ((5 - s5) / 10) + 0 + ((5 + s5) / 10)) = (0 : ℝ)
    ring1
  · show -27 * 0 * ((5 + s5) / 10) * (-1 + 0 + ((5 - s5) / 10) + ((5 + s5) / 10)) = (0 : ℝ)
    ring1
  · show -27 * 0 * 1 * (-1 + 0 + 0 + 1) = (0 : ℝ)
    ring1

private theorem tet3_grad11 (x y z : ℝ) :
    HasDerivAt (fun t => tet3 s5 t y z 11) (tet3Grad s5 x y z 11 0) x ∧
      HasDerivAt (fun t => tet3 s5 x t z 11) (tet3Grad s5 x y z 11 1) y ∧
      HasDerivAt (fun t => tet3 s5 x y t 11) (tet3Grad s5 x y z 11 2) z := by
  refine ⟨?_, ?_, ?_⟩
  · show HasDerivAt (fun t : ℝ => -27 * t * z * (-1 + t + y + z)) (-27 * z * (-1 + 2 * x + y + z)) x
    hd; ring1
  · show HasDerivAt (fun t : ℝ => -27 * x * z * (-1 + x + t + z)) (-27 * x * z) y
    hd; ring1
  · show HasDerivAt (fun t : ℝ => -27 * x * t * (-1 + x + y + t)) (-27 * x * (-1 + x + y + 2 * z)) z
    hd; ring1

private theorem tet3_delta12 (h : s5 ^ 2 = 5) (j : Fin 20) : tet3 s5 (tet3Node ((5 - s5) / 10) ((5 + s5) / 10) j 0) (tet3Node ((5 - s5) / 10) ((5 + s5) / 10) j 1) (tet3Node ((5 - s5) / 10) ((5 + s5) / 10) j 2) 12 = if (12 : Fin 20) = j then 1 else 0 := by
  rw [tet3_12 h]
  fin_cases j
  · show 5 * 0 * 0 * (-2 + (3 + s5) * 0 - (-3 + s5) * 0) / 2 = (0 : ℝ)
    ring1
  · show 5 * ((5 - s5) / 10) * 0 * (-2 + (3 + s5) * ((5 - s5) / 10) - (-3 + s5) * 0) / 2 = (0 : ℝ)
    ring1
  · show 5 * ((5 + s5) / 10) * 0 * (-2 + (3 + s5) * ((5 + s5) / 10) - (-3 + s5) * 0) / 2 = (0 : ℝ)
    ring1
  · show 5 * 1 * 0 * (-2 + (3 + s5) * 1 - (-3 + s5) * 0) / 2 = (0 : ℝ)
    ring1
  · show 5 * 0 * 0 * (-2 + (3 + s5) * 0 - (-3 + s5) * 0) / 2 = (0 : ℝ)
    ring1
  · show 5 * (1 / 3) * 0 * (-2 + (3 + s5) * (1 / 3) - (-3 + s5) * 0) / 2 = (0 : ℝ)
    ring1
  · show 5 * ((5 + s5) / 10) * 0 * (-2 + (3 + s5) * ((5 + s5) / 10) - (-3 + s5) * 0) / 2 = (0 : ℝ)
    ring1
  · show 5 * 0 * 0 * (-2 + (3 + s5) * 0 - (-3 + s5) * 0) / 2 = (0 : ℝ)
    ring1
  · show 5 * ((5 - s5) / 10) * 0 * (-2 + (3 + s5) * ((5 - s5) / 10) - (-3 + s5) * 0) / 2 = (0 : ℝ)
    ring1
  · show 5 * 0 * 0 * (-2 + (3 + s5) * 0 - (-3 + s5) * 0) / 2 = (0 : ℝ)
    ring1
  · show 5 * 0 * ((5 - s5) / 10) * (-2 + (3 + s5) * 0 - (-3 + s5) * ((5 - s5) / 10)) / 2 = (0 : ℝ)
    ring1
  · show 5 * (1 / 3) * (1 / 3) * (-2 + (3 + s5) * (1 / 3) - (-3 + s5) * (1 / 3)) / 2 = (0 : ℝ)
    ring1
  · show 5 * ((5 + s5) / 10) * ((5 - s5) / 10) * (-2 + (3 + s5) * ((5 + s5) / 10) - (-3 + s5) * ((5 - s5) / 10)) / 2 = (1 : ℝ)
    linear_combination ((3/40) + (-1/200) * s5 ^ 2) * h
  · show 5 * 0 * (1 / 3) * (-2 + (3 + s5) * 0 - (-3 + s5) * (1 / 3)) / 2 = (0 : ℝ)
    ring1
  · show 5 * (1 / 3) * (1 / 3) * (-2 + (3 + s5) * (1 / 3) - (-3 + s5) * (1 / 3)) / 2 = (0 : ℝ)
    ring1
  · show 5 * 0 * ((5 - s5) / 10) * (-2 + (3 + s5) * 0 - (-3 + s5) * ((5 - s5) / 10)) / 2 = (0 : ℝ)
    ring1
  · show 5 * 0 * ((5 + s5) / 10) * (-2 + (3 + s5) * 0 - (-3 + s5) * ((5 + s5) / 10)) / 2 = (0 : ℝ)
    ring1
  · show 5 * ((5 - s5) / 10) * ((5 + s5) / 10) * (-2 + (3 + s5) * ((5 - s5) / 10) - (-3 + s5) * ((5 + s5) / 10)) / 2 = (0 : ℝ)
    linear_combination ((-1/8) + (1/200) * s5 ^ 2) * h
  · show 5 * 0 * ((5 + s5) / 10) * (-2 + (3 + s5) * 0 - (-3 + s5) * ((5 + s5) / 10)) / 2 = (0 : ℝ)
    ring1
  · show 5 * 0 * 1 * (-2 + (3 + s5) * 0 - (-3 + s5) * 1) / 2 = (0 : ℝ)
    ring1

private theorem tet3_grad12 (h : s5 ^ 2 = 5) (x y z : ℝ) :
    HasDerivAt (fun t => tet3 s5 t y z 12) (tet3Grad s5 x y z 12 0) x ∧
      HasDerivAt (fun t => tet3 s5 x t z 12) (tet3Grad s5 x y z 12 1) y ∧
      HasDerivAt (fun t => tet3 s5 x y t 12) (tet3Grad s5 x y z 12 2) z := by
  simp only [tet3_12 h]
  refine ⟨?_, ?_, ?_⟩
  · show HasDerivAt (fun t : ℝ => 5 * t * z * (-2 + (3 + s5) * t - (-3 + s5) * z) / 2) ((-5 * z * (2 - 2 * (3 + s5) * x + (-3 + s5) * z)) / 2) x
    hd; ring1
  · show HasDerivAt (fun t : ℝ => 5 * x * z * (-2 + (3 + s5) * x - (-3 + s5) * z) / 2) (0) y
    hd; ring1
  · show HasDerivAt (fun t : ℝ => 5 * x * t * (-2 + (3 + s5) * x - (-3 + s5) * t) / 2) ((5 * x * (-2 + (3 + s5) * x - 2 * (-3 + s5) * z)) / 2) z
    hd; ring1

private theorem tet3_delta13 (h : s5 ^ 2 = 5) (j : Fin 20) : tet3 s5 (tet3Node ((5 - s5) / 10) ((5 + s5) / 10) j 0) (tet3Node ((5 - s5) / 10) ((5 + s5) / 10) j 1) (tet3Node ((5 - s5) / 10) ((5 + s5) / 10) j 2) 13 = if (13 : Fin 20) = j then 1 else 0 := by
  fin_cases j
  · show -27 * 0 * 0 * (-1 + 0 + 0 + 0) = (0 : ℝ)
    ring1
  · show -27 * 0 * 0 * (-1 + ((5 - s5) / 10) + 0 + 0) = (0 : ℝ)
    ring1
  · show -27 * 0 * 0 * (-1 + ((5 + s5) / 10) + 0 + 0) = (0 : ℝ)
    ring1
  · show -27 * 0 * 0 * (-1 + 1 + 0 + 0) = (0 : ℝ)
    ring1
  · show -27 * ((5 - s5) / 10) * 0 * (-1 + 0 + ((5 - s5) / 10) + 0) = (0 : ℝ)
    ring1
  · show -27 * (1 / 3) * 0 * (-1 + (1 / 3) + (1 / 3) + 0) = (0 : ℝ)
    ring1
  · show -27 * ((5 - s5) / 10) * 0 * (-1 + ((5 + s5) / 10) + ((5 - s5) / 10) + 0) = (0 : ℝ)
    ring1
  · show -27 * ((5 + s5) / 10) * 0 * (-1 + 0 + ((5 + s5) / 10) + 0) = (0 : ℝ)
    ring1
  · show -27 * ((5 + s5) / 10) * 0 * (-1 + ((5 - s5) / 10) + ((5 + s5) / 10) + 0) = (0 : ℝ)
    ring1
  · show -27 * 1 * 0 * (-1 + 0 + 1 + 0) = (0 : ℝ)
    ring1
  · show -27 * 0 * ((5 - s5) / 10) * (-1 + 0 + 0 + ((5 - s5) / 10)) = (0 : ℝ)
    ring1
  · show -27 * 0 * (1 / 3) * (-1 + (1 / 3) + 0 + (1 / 3)) = (0 : ℝ)
    ring1
  · show -27 * 0 * ((5 - s5) / 10) * (-1 + ((5 + s5) / 10) + 0 + ((5 - s5) / 10)) = (0 : ℝ)
    ring1
  · show -27 * (1 / 3) * (1 / 3) * (-1 + 0 + (1 / 3) + (1 / 3)) = (1 : ℝ)
    ring1
  · show -27 * (1 / 3) * (1 / 3) * (-1 + (1 / 3) + (1 / 3) + (1 / 3)) = (0 : ℝ)
    ring1
  · show -27 * ((5 + s5) / 10) * ((5 - s5) / 10) * (-1 + 0 + ((5 + s5) / 10) + ((5 - s5) / 10)) = (0 : ℝ)
    ring1
  · show -27 * 0 * ((5 + s5) / 10) * (-1 + 0 + 0 + ((5 + s5) / 10)) = (0 : ℝ)
    ring1
  · show -27 * 0 * ((5 + s5) / 10) * (-1 + ((5 - s5) / 10) + 0 + ((5 + s5) / 10)) = (0 : ℝ)
    ring1
  · show -27 * ((5 - s5) / 10) * ((5 + s5) / 10) * (-1 + 0 + ((5 - s5) / 10) + ((5 + s5) / 10)) = (0 : ℝ)
    ring1
  · show -27 * 0 * 1 * (-1 + 0 + 0 + 1) = (0 : ℝ)
    ring1

private theorem tet3_grad13 (x y z : ℝ) :
    HasDerivAt (fun t => tet3 s5 t y z 13) (tet3Grad s5 x y z 13 0) x ∧
      HasDerivAt (fun t => tet3 s5 x t z 13) (tet3Grad s5 x y z 13 1) y ∧
      HasDerivAt (fun t => tet3 s5 x y t 13) (tet3Grad s5 x y z 13 2) z := by
  refine ⟨?_, ?_, ?_⟩
  · show HasDerivAt (fun t : ℝ => -27 * y * z * (-1 + t + y + z)) (-27 * y * z) x
    hd; ring1
  · show HasDerivAt (fun t : ℝ => -27 * t * z * (-1 + x + t + z)) (-27 * z * (-1 + x + 2 * y + z)) y
    hd; ring1
  · show HasDerivAt (fun t : ℝ => -27 * y * t * (-1 + x + y + t)) (-27 * y * (-1 + x + y + 2 * z)) z
    hd; ring1

private theorem tet3_delta14 (h : s5 ^ 2 = 5) (j : Fin 20) : tet3 s5 (tet3Node ((5 - s5) / 10) ((5 + s5) / 10) j 0) (tet3Node ((5 - s5) / 10) ((5 + s5) / 10) j 1) (tet3Node ((5 - s5) / 10) ((5 + s5) / 10) j 2) 14 = if (14 : Fin 20) = j then 1 else 0 := by
  fin_cases j
  · show 27 * 0 * 0 * 0 = (0 : ℝ)
    ring1
  · show 27 * ((5 - s5) / 10) * 0 * 0 = (0 : ℝ)
    ring1
  · show 27 * ((5 + s5) / 10) * 0 * 0 = (0 : ℝ)
    ring1
  · show 27 * 1 * 0 * 0 = (0 : ℝ)
    ring1
  · show 27 * 0 * ((5 - s5) / 10) * 0 = (0 : ℝ)
    ring1
  · show 27 * (1 / 3) * (1 / 3) * 0 = (0 : ℝ)
    ring1
  · show 27 * ((5 + s5) / 10) * ((5 - s5) / 10) * 0 = (0 : ℝ)
    ring1
  · show 27 * 0 * ((5 + s5) / 10) * 0 = (0 : ℝ)
    ring1
  · show 27 * ((5 - s5) / 10) * ((5 + s5) / 10) * 0 = (0 : ℝ)
    ring1
  · show 27 * 0 * 1 * 0 = (0 : ℝ)
    ring1
  · show 27 * 0 * 0 * ((5 - s5) / 10) = (0 : ℝ)
    ring1
  · show 27 * (1 / 3) * 0 * (1 / 3) = (0 : ℝ)
    ring1
  · show 27 * ((5 + s5) / 10) * 0 * ((5 - s5) / 10) = (0 : ℝ)
    ring1
  · show 27 * 0 * (1 / 3) * (1 / 3) = (0 : ℝ)
    ring1
  · show 27 * (1 / 3) * (1 / 3) * (1 / 3) = (1 : ℝ)
    ring1
  · show 27 * 0 * ((5 + s5) / 10) * ((5 - s5) / 10) = (0 : ℝ)
    ring1
  · show 27 * 0 * 0 * ((5 + s5) / 10) = (0 : ℝ)
    ring1
  · show 27 * ((5 - s5) / 10) * 0 * ((5 + s5) / 10) = (0 : ℝ)
    ring1
  · show 27 * 0 * ((5 - s5) / 10) * ((5 + s5) / 10) = (0 : ℝ)
    ring1
  · show 27 * 0 * 0 * 1 = (0 : ℝ)
    ring1

private theorem tet3_grad14 (x y z : ℝ) :
    HasDerivAt (fun t => tet3 s5 t y z 14) (tet3Grad s5 x y z 14 0) x ∧
      HasDerivAt (fun t => tet3 s5 x t z 14) (tet3Grad s5 x y z 14 1) y ∧
      HasDerivAt (fun t => tet3 s5 x y t 14) (tet3Grad s5 x y z 14 2) z := by
  refine ⟨?_, ?_, ?_⟩
  · show HasDerivAt (fun t : ℝ => 27 * t * y * z) (27 * y * z) x
    hd; ring1
  · show HasDerivAt (fun t : ℝ => 27 * x * t * z) (27 * x * z) y
    hd; ring1
  · show HasDerivAt (fun t : ℝ => 27 * x * y * t) (27 * x * y) z
    hd; ring1

private theorem tet3_delta15 (h : s5 ^ 2 = 5) (j : Fin 20) : tet3 s5 (tet3Node ((5 - s5) / 10) ((5 + s5) / 10) j 0) (tet3Node ((5 - s5) / 10) ((5 + s5) / 10) j 1) (tet3Node ((5 - s5) / 10) ((5 + s5) / 10) j 2) 15 = if (15 : Fin 20) = j then 1 else 0 := by
  rw [tet3_15 h]
  fin_cases j
  · show 5 * 0 * 0 * (-2 + (3 + s5) * 0 - (-3 + s5) * 0) / 2 = (0 : ℝ)
    ring1
  · show 5 * 0 * 0 * (-2 + (3 + s5) * 0 - (-3 + s5) * 0) / 2 = (0 : ℝ)
    ring1
  · show 5 * 0 * 0 * (-2 + (3 + s5) * 0 - (-3 + s5) * 0) / 2 = (0 : ℝ)
    ring1
  · show 5 * 0 * 0 * (-2 + (3 + s5) * 0 - (-3 + s5) * 0) / 2 = (0 : ℝ)
    ring1
  · show 5 * ((5 - s5) / 10) * 0 * (-2 + (3 + s5) * ((5 - s5) / 10) - (-3 + s5) * 0) / 2 = (0 : ℝ)
    ring1
  · show 5 * (1 / 3) * 0 * (-2 + (3 + s5) * (1 / 3) - (-3 + s5) * 0) / 2 = (0 : ℝ)
    ring1
  · show 5 * ((5 - s5) / 10) * 0 * (-2 + (3 + s5) * ((5 - s5) / 10) - (-3 + s5) * 0) / 2 = (0 : ℝ)
    ring1
  · show 5 * ((5 + s5) / 10) * 0 * (-2 + (3 + s5) * ((5 + s5) / 10) - (-3 + s5) * 0) / 2 = (0 : ℝ)
    ring1
  · show 5 * ((5 + s5) / 10) * 0 * (-2 + (3 + s5) * ((5 + s5) / 10) - (-3 + s5) * 0) / 2 = (0 : ℝ)
    ring1
  · show 5 * 1 * 0 * (-2 + (3 + s5) * 1 - (-3 + s5) * 0) / 2 = (0 : ℝ)
    ring1
  · show 5 * 0 * ((5 - s5) / 10) * (-2 + (3 + s5) * 0 - (-3 + s5) * ((5 - s5) / 10)) / 2 = (0 : ℝ)
    ring1
  · show 5 * 0 * (1 / 3) * (-2 + (3 + s5) * 0 - (-3 + s5) * (1 / 3)) / 2 = (0 : ℝ)
    ring1
  · show 5 * 0 * ((5 - s5) / 10) * (-2 + (3 + s5) * 0 - (-3 + s5) * ((5 - s5) / 10)) / 2 = (0 : ℝ)
    ring1
  · show 5 * (1 / 3) * (1 / 3) * (-2 + (3 + s5) * (1 / 3) - (-3 + s5) * (1 / 3)) / 2 = (0 : ℝ)
    ring1
  · show 5 * (1 / 3) * (1 / 3) * (-2 + (3 + s5) * (1 / 3) - (-3 + s5) * (1 / 3)) / 2 = (0 : ℝ)
    ring1
  · show 5 * ((5 + s5) / 10) * ((5 - s5) / 10) * (-2 + (3 + s5) * ((5 + s5) / 10) - (-3 + s5) * ((5 - s5) / 10)) / 2 = (1 : ℝ)
    linear_combination ((3/40) + (-1/200) * s5 ^ 2) * h
  · show 5 * 0 * ((5 + s5) / 10) * (-2 + (3 + s5) * 0 - (-3 + s5) * ((5 + s5) / 10)) / 2 = (0 : ℝ)
    ring1
  · show 5 * 0 * ((5 + s5) / 10) * (-2 + (3 + s5) * 0 - (-3 + s5) * ((5 + s5) / 10)) / 2 = (0 : ℝ)
    ring1
  · show 5 * ((5 - s5) / 10) * ((5 + s5) / 10) * (-2 + (3 + s5) * ((5 - s5) / 10) - (-3 + s5) * ((5 + s5) / 10)) / 2 = (0 : ℝ)
    linear_combination ((-1/8) + (1/200) * s5 ^ 2) * h
  · show 5 * 0 * 1 * (-2 + (3 + s5) * 0 - (-3 + s5) * 1) / 2 = (0 : ℝ)
    ring1

private theorem tet3_grad15 (h : s5 ^ 2 = 5) (x y z : ℝ) :
    HasDerivAt (fun t => tet3 s5 t y z 15) (tet3Grad s5 x y z 15 0) x ∧
      HasDerivAt (fun t => tet3 s5 x t z 15) (tet3Grad s5 x y z 15 1) y ∧
      HasDerivAt (fun t => tet3 s5 x y t 15) (tet3Grad s5 x y z 15 2) z := by
  simp only [tet3_15 h]
  refine ⟨?_, ?_, ?_⟩
  · show HasDerivAt (fun t : ℝ => 5 * y * z * (-2 + (3 + s5) * y - (-3 + s5) * z) / 2) (0) x
    hd; ring1
  · show HasDerivAt (fun t : ℝ => 5 * t * z * (-2 + (3 + s5) * t - (-3 + s5) * z) / 2) ((-5 * z * (2 - 2 * (3 + s5) * y + (-3 + s5) * z)) / 2) y
    hd; ring1
  · show HasDerivAt (fun t : ℝ => 5 * y * t * (-2 + (3 + s5) * y - (-3 + s5) * t) / 2) ((5 * y * (-2 + (3 + s5) * y - 2 * (-3 + s5) * z)) / 2) z
    hd; ring1

private theorem tet3_delta16 (h : s5 ^ 2 = 5) (j : Fin 20) : tet3 s5 (tet3Node ((5 - s5) / 10) ((5 + s5) / 10) j 0) (tet3Node ((5 - s5) / 10) ((5 + s5) / 10) j 1) (tet3Node ((5 - s5) / 10) ((5 + s5) / 10) j 2) 16 = if (16 : Fin 20) = j then 1 else 0 := by
  rw [tet3_16 h]
  fin_cases j
  · show -5 * 0 * (-1 + 0 + 0 + 0) * (1 - s5 + (-3 + s5) * 0 + (-3 + s5) * 0 + 2 * s5 * 0) / 2 = (0 : ℝ)
    ring1
  · show -5 * 0 * (-1 + ((5 - s5) / 10) + 0 + 0) * (1 - s5 + (-3 + s5) * ((5 - s5) / 10) + (-3 + s5) * 0 + 2 * s5 * 0) / 2 = (0 : ℝ)
    ring1
  · show -5 * 0 * (-1 + ((5 + s5) / 10) + 0 + 0) * (1 - s5 + (-3 + s5) * ((5 + s5) / 10) + (-3 + s5) * 0 + 2 * s5 * 0) / 2 = (0 : ℝ)
    ring1
  · show -5 * 0 * (-1 + 1 + 0 + 0) * (1 - s5 + (-3 + s5) * 1 + (-3 + s5) * 0 + 2 * s5 * 0) / 2 = (0 : ℝ)
    ring1
  · show -5 * 0 * (-1 + 0 + ((5 - s5) / 10) + 0) * (1 - s5 + (-3 + s5) * 0 + (-3 + s5) * ((5 - s5) / 10) + 2 * s5 * 0) / 2 = (0 : ℝ)
    ring1
  · show -5 * 0 * (-1 + (1 / 3) + (1 / 3) + 0) * (1 - s5 + (-3 + s5) * (1 / 3) + (-3 + s5) * (1 / 3) + 2 * s5 * 0) / 2 = (0 : ℝ)
    ring1
  · show -5 * 0 * (-1 + ((5 + s5) / 10) + ((5 - s5) / 10) + 0) * (1 - s5 + (-3 + s5) * ((5 + s5) / 10) + (-3 + s5) * ((5 - s5) / 10) + 2 * s5 * 0) / 2 = (0 : ℝ)
    ring1
  · show -5 * 0 * (-1 + 0 + ((5 + s5) / 10) + 0) * (1 - s5 + (-3 + s5) * 0 + (-3 + s5) * ((5 + s5) / 10) + 2 * s5 * 0) / 2 = (0 : ℝ)
    ring1
  · show -5 * 0 * (-1 + ((5 - s5) / 10) + ((5 + s5) / 10) + 0) * (1 - s5 + (-3 + s5) * ((5 - s5) / 10) + (-3 + s5) * ((5 + s5) / 10) + 2 * s5 * 0) / 2 = (0 : ℝ)
    ring1
  · show -5 * 0 * (-1 + 0 + 1 + 0) * (1 - s5 + (-3 + s5) * 0 + (-3 + s5) * 1 + 2 * s5 * 0) / 2 = (0 : ℝ)
    ring1
  · show -5 * ((5 - s5) / 10) * (-1 + 0 + 0 + ((5 - s5) / 10)) * (1 - s5 + (-3 + s5) * 0 + (-3 + s5) * 0 + 2 * s5 * ((5 - s5) / 10)) / 2 = (0 : ℝ)
    linear_combination ((-1/8) + (1/200) * s5 ^ 2) * h
  · show -5 * (1 / 3) * (-1 + (1 / 3) + 0 + (1 / 3)) * (1 - s5 + (-3 + s5) * (1 / 3) + (-3 + s5) * 0 + 2 * s5 * (1 / 3)) / 2 = (0 : ℝ)
    ring1
  · show -5 * ((5 - s5) / 10) * (-1 + ((5 + s5) / 10) + 0 + ((5 - s5) / 10)) * (1 - s5 + (-3 + s5) * ((5 + s5) / 10) + (-3 + s5) * 0 + 2 * s5 * ((5 - s5) / 10)) / 2 = (0 : ℝ)
    ring1
  · show -5 * (1 / 3) * (-1 + 0 + (1 / 3) + (1 / 3)) * (1 - s5 + (-3 + s5) * 0 + (-3 + s5) * (1 / 3) + 2 * s5 * (1 / 3)) / 2 = (0 : ℝ)
    ring1
  · show -5 * (1 / 3) * (-1 + (1 / 3) + (1 / 3) + (1 / 3)) * (1 - s5 + (-3 + s5) * (1 / 3) + (-3 + s5) * (1 / 3) + 2 * s5 * (1 / 3)) / 2 = (0 : ℝ)
    ring1
  · show -5 * ((5 - s5) / 10) * (-1 + 0 + ((5 + s5) / 10) + ((5 - s5) / 10)) * (1 - s5 + (-3 + s5) * 0 + (-3 + s5) * ((5 + s5) / 10) + 2 * s5 * ((5 - s5) / 10)) / 2 = (0 : ℝ)
    ring1
  · show -5 * ((5 + s5) / 10) * (-1 + 0 + 0 + ((5 + s5) / 10)) * (1 - s5 + (-3 + s5) * 0 + (-3 + s5) * 0 + 2 * s5 * ((5 + s5) / 10)) / 2 = (1 : ℝ)
    linear_combination ((3/40) + (-1/200) * s5 ^ 2) * h
  · show -5 * ((5 + s5) / 10) * (-1 + ((5 - s5) / 10) + 0 + ((5 + s5) / 10)) * (1 - s5 + (-3 + s5) * ((5 - s5) / 10) + (-3 + s5) * 0 + 2 * s5 * ((5 + s5) / 10)) / 2 = (0 : ℝ)
    ring1
  · show -5 * ((5 + s5) / 10) * (-1 + 0 + ((5 - s5) / 10) + ((5 + s5) / 10)) * (1 - s5 + (-3 + s5) * 0 + (-3 + s5) * ((5 - s5) / 10) + 2 * s5 * ((5 + s5) / 10)) / 2 = (0 : ℝ)
    ring1
  · show -5 * 1 * (-1 + 0 + 0 + 1) * (1 - s5 + (-3 + s5) * 0 + (-3 + s5) * 0 + 2 * s5 * 1) / 2 = (0 : ℝ)
    ring1

private theorem tet3_grad16 (h : s5 ^ 2 = 5) (x y z : ℝ) :
    HasDerivAt (fun t => tet3 s5 t y z 16) (tet3Grad s5 x y z 16 0) x ∧
      HasDerivAt (fun t => tet3 s5 x t z 16) (tet3Grad s5 x y z 16 1) y ∧
      HasDerivAt (fun t => tet3 s5 x y t 16) (tet3Grad s5 x y z 16 2) z := by
  simp only [tet3_16 h]
  refine ⟨?_, ?_, ?_⟩
  · show HasDerivAt (fun t : ℝ => -5 * z * (-1 + t + y + z) * (1 - s5 + (-3 + s5) * t + (-3 + s5) * y + 2 * s5 * z) / 2) ((-5 * z * (4 - 2 * s5 + 2 * (-3 + s5) * x + 2 * (-3 + s5) * y + 3 * (-1 + s5) * z)) / 2) x
    hd; ring1
  · show HasDerivAt (fun t : ℝ => -5 * z * (-1 + x + t + z) * (1 - s5 + (-3 + s5) * x + (-3 + s5) * t + 2 * s5 * z) / 2) ((-5 * z * (4 - 2 * s5 + 2 * (-3 + s5) * x + 2 * (-3 + s5) * y + 3 * (-1 + s5) * z)) / 2) y
    hd; ring1
  · show HasDerivAt (fun t : ℝ => -5 * t * (-1 + x + y + t) * (1 - s5 + (-3 + s5) * x + (-3 + s5) * y + 2 * s5 * t) / 2) ((-5 * (-3 + s5) * x * x) / 2 - 5 * x * (2 - s5 + (-3 + s5) * y + 3 * (-1 + s5) * z) - (5 * (-1 + s5 + (-3 + s5) * y * y + 2 * z * (1 - 3 * s5 + 3 * s5 * z) + y * (4 - 2 * s5 + 6 * (-1 + s5) * z))) / 2) z
    hd; ring1

private theorem tet3_delta17 (h : s5 ^ 2 = 5) (j : Fin 20) : tet3 s5 (tet3Node ((5 - s5) / 10) ((5 + s5) / 10) j 0) (tet3Node ((5 - s5) / 10) ((5 + s5) / 10) j 1) (tet3Node ((5 - s5) / 10) ((5 + s5) / 10) j 2) 17 = if (17 : Fin 20) = j then 1 else 0 := by
  fin_cases j
  · show (-5 * 0 * 0 * (2 + (-3 + s5) * 0 - (3 + s5) * 0)) / 2 = (0 : ℝ)
    ring1
  · show (-5 * ((5 - s5) / 10) * 0 * (2 + (-3 + s5) * ((5 - s5) / 10) - (3 + s5) * 0)) / 2 = (0 : ℝ)
    ring1
  · show (-5 * ((5 + s5) / 10) * 0 * (2 + (-3 + s5) * ((5 + s5) / 10) - (3 + s5) * 0)) / 2 = (0 : ℝ)
    ring1
  · show (-5 * 1 * 0 * (2 + (-3 + s5) * 1 - (3 + s5) * 0)) / 2 = (0 : ℝ)
    ring1
  · show (-5 * 0 * 0 * (2 + (-3 + s5) * 0 - (3 + s5) * 0)) / 2 = (0 : ℝ)
    ring1
  · show (-5 * (1 / 3) * 0 * (2 + (-3 + s5) * (1 / 3) - (3 + s5) * 0)) / 2 = (0 : ℝ)
    ring1
  · show (-5 * ((5 + s5) / 10) * 0 * (2 + (-3 + s5) * ((5 + s5) / 10) - (3 + s5) * 0)) / 2 = (0 : ℝ)
    ring1
  · show (-5 * 0 * 0 * (2 + (-3 + s5) * 0 - (3 + s5) * 0)) / 2 = (0 : ℝ)
    ring1
  · show (-5 * ((5 - s5) / 10) * 0 * (2 + (-3 + s5) * ((5 - s5) / 10) - (3 + s5) * 0)) / 2 = (0 : ℝ)
    ring1
  · show (-5 * 0 * 0 * (2 + (-3 + s5) * 0 - (3 + s5) * 0)) / 2 = (0 : ℝ)
    ring1
  · show (-5 * 0 * ((5 - s5) / 10) * (2 + (-3 + s5) * 0 - (3 + s5) * ((5 - s5) / 10))) / 2 = (0 : ℝ)
    ring1
  · show (-5 * (1 / 3) * (1 / 3) * (2 + (-3 + s5) * (1 / 3) - (3 + s5) * (1 / 3))) / 2 = (0 : ℝ)
    ring1
  · show (-5 * ((5 + s5) / 10) * ((5 - s5) / 10) * (2 + (-3 + s5) * ((5 + s5) / 10) - (3 + s5) * ((5 - s5) / 10))) / 2 = (0 : ℝ)
    linear_combination ((-1/8) + (1/200) * s5 ^ 2) * h
  · show (-5 * 0 * (1 / 3) * (2 + (-3 + s5) * 0 - (3 + s5) * (1 / 3))) / 2 = (0 : ℝ)
    ring1
  · show (-5 * (1 / 3) * (1 / 3) * (2 + (-3 + s5) * (1 / 3) - (3 + s5) * (1 / 3))) / 2 = (0 : ℝ)
    ring1
  · show (-5 * 0 * ((5 - s5) / 10) * (2 + (-3 + s5) * 0 - (3 + s5) * ((5 - s5) / 10))) / 2 = (0 : ℝ)
    ring1
  · show (-5 * 0 * ((5 + s5) / 10) * (2 + (-3 + s5) * 0 - (3 + s5) * ((5 + s5) / 10))) / 2 = (0 : ℝ)
    ring1
  · show (-5 * ((5 - s5) / 10) * ((5 + s5) / 10) * (2 + (-3 + s5) * ((5 - s5) / 10) - (3 + s5) * ((5 + s5) / 10))) / 2 = (1 : ℝ)
    linear_combination ((3/40) + (-1/200) * s5 ^ 2) * h
  · show (-5 * 0 * ((5 + s5) / 10) * (2 + (-3 + s5) * 0 - (3 + s5) * ((5 + s5) / 10))) / 2 = (0 : ℝ)
    ring1
  · show (-5 * 0 * 1 * (2 + (-3 + s5) * 0 - (3 + s5) * 1)) / 2 = (0 : ℝ)
    ring1

private theorem tet3_grad17 (x y z : ℝ) :
    HasDerivAt (fun t => tet3 s5 t y z 17) (tet3Grad s5 x y z 17 0) x ∧
      HasDerivAt (fun t => tet3 s5 x t z 17) (tet3Grad s5 x y z 17 1) y ∧
      HasDerivAt (fun t => tet3 s5 x y t 17) (tet3Grad s5 x y z 17 2) z := by
  refine ⟨?_, ?_, ?_⟩
  · show HasDerivAt (fun t : ℝ => (-5 * t * z * (2 + (-3 + s5) * t - (3 + s5) * z)) / 2) ((5 * z * (-2 - 2 * (-3 + s5) * x + (3 + s5) * z)) / 2) x
    hd; ring1
  · show HasDerivAt (fun t : ℝ => (-5 * x * z * (2 + (-3 + s5) * x - (3 + s5) * z)) / 2) (0) y
    hd; ring1
  · show HasDerivAt (fun t : ℝ => (-5 * x * t * (2 + (-3 + s5) * x - (3 + s5) * t)) / 2) ((-5 * x * (2 + (-3 + s5) * x - 2 * (3 + s5) * z)) / 2) z
    hd; ring1

private theorem tet3_delta18 (h : s5 ^ 2 = 5) (j : Fin 20) : tet3 s5 (tet3Node ((5 - s5) / 10) ((5 + s5) / 10) j 0) (tet3Node ((5 - s5) / 10) ((5 + s5) / 10) j 1) (tet3Node ((5 - s5) / 10) ((5 + s5) / 10) j 2) 18 = if (18 : Fin 20) = j then 1 else 0 := by
  fin_cases j
  · show (-5 * 0 * 0 * (2 + (-3 + s5) * 0 - (3 + s5) * 0)) / 2 = (0 : ℝ)
    ring1
  · show (-5 * 0 * 0 * (2 + (-3 + s5) * 0 - (3 + s5) * 0)) / 2 = (0 : ℝ)
    ring1
  · show (-5 * 0 * 0 * (2 + (-3 + s5) * 0 - (3 + s5) * 0)) / 2 = (0 : ℝ)
    ring1
  · show (-5 * 0 * 0 * (2 + (-3 + s5) * 0 - (3 + s5) * 0)) / 2 = (0 : ℝ)
    ring1
  · show (-5 * ((5 - s5) / 10) * 0 * (2 + (-3 + s5) * ((5 - s5) / 10) - (3 + s5) * 0)) / 2 = (0 : ℝ)
    ring1
  · show (-5 * (1 / 3) * 0 * (2 + (-3 + s5) * (1 / 3) - (3 + s5) * 0)) / 2 = (0 : ℝ)
    ring1
  · show (-5 * ((5 - s5) / 10) * 0 * (2 + (-3 + s5) * ((5 - s5) / 10) - (3 + s5) * 0)) / 2 = (0 : ℝ)
    ring1
  · show (-5 * ((5 + s5) / 10) * 0 * (2 + (-3 + s5) * ((5 + s5) / 10) - (3 + s5) * 0)) / 2 = (0 : ℝ)
    ring1
  · show (-5 * ((5 + s5) / 10) * 0 * (2 + (-3 + s5) * ((5 + s5) / 10) - (3 + s5) * 0)) / 2 = (0 : ℝ)
    ring1
  · show (-5 * 1 * 0 * (2 + (-3 + s5) * 1 - (3 + s5) * 0)) / 2 = (0 : ℝ)
    ring1
  · show (-5 * 0 * ((5 - s5) / 10) * (2 + (-3 + s5) * 0 - (3 + s5) * ((5 - s5) / 10))) / 2 = (0 : ℝ)
    ring1
  · show (-5 * 0 * (1 / 3) * (2 + (-3 + s5) * 0 - (3 + s5) * (1 / 3))) / 2 = (0 : ℝ)
    ring1
  · show (-5 * 0 * ((5 - s5) / 10) * (2 + (-3 + s5) * 0 - (3 + s5) * ((5 - s5) / 10))) / 2 = (0 : ℝ)
    ring1
  · show (-5 * (1 / 3) * (1 / 3) * (2 + (-3 + s5) * (1 / 3) - (3 + s5) * (1 / 3))) / 2 = (0 : ℝ)
    ring1
  · show (-5 * (1 / 3) * (1 / 3) * (2 + (-3 + s5) * (1 / 3) - (3 + s5) * (1 / 3))) / 2 = (0 : ℝ)
    ring1
  · show (-5 * ((5 + s5) / 10) * ((5 - s5) / 10) * (2 + (-3 + s5) * ((5 + s5) / 10) - (3 + s5) * ((5 - s5) / 10))) / 2 = (0 : ℝ)
    linear_combination ((-1/8) + (1/200) * s5 ^ 2) * h
  · show (-5 * 0 * ((5 + s5) / 10) * (2 + (-3 + s5) * 0 - (3 + s5) * ((5 + s5) / 10))) / 2 = (0 : ℝ)
    ring1
  · show (-5 * 0 * ((5 + s5) / 10) * (2 + (-3 + s5) * 0 - (3 + s5) * ((5 + s5) / 10))) / 2 = (0 : ℝ)
    ring1
  · show (-5 * ((5 - s5) / 10) * ((5 + s5) / 10) * (2 + (-3 + s5) * ((5 - s5) / 10) - (3 + s5) * ((5 + s5) / 10))) / 2 = (1 : ℝ)
    linear_combination ((3/40) + (-1/200) * s5 ^ 2) * h
  · show (-5 * 0 * 1 * (2 + (-3 + s5) * 0 - (3 + s5) * 1)) / 2 = (0 : ℝ)
    ring1

private theorem tet3_grad18 (x y z : ℝ) :
    HasDerivAt (fun t => tet3 s5 t y z 18) (tet3Grad s5 x y z 18 0) x ∧
      HasDerivAt (fun t => tet3 s5 x t z 18) (tet3Grad s5 x y z 18 1) y ∧
      HasDerivAt (fun t => tet3 s5 x y t 18) (tet3Grad s5 x y z 18 2) z := by
  refine ⟨?_, ?_, ?_⟩
  · show HasDerivAt (fun t : ℝ => (-5 * y * z * (2 + (-3 + s5) * y - (3 + s5) * z)) / 2) (0) x
    hd; ring1
  · show HasDerivAt (fun t : ℝ => (-5 * t * z * (2 + (-3 + s5) * t - (3 + s5) * z)) / 2) ((5 * z * (-2 - 2 * (-3 + s5) * y + (3 + s5) * z)) / 2) y
    hd; ring1
  · show HasDerivAt (fun t : ℝ => (-5 * y * t * (2 + (-3 + s5) * y - (3 + s5) * t)) / 2) ((-5 * y * (2 + (-3 + s5) * y - 2 * (3 + s5) * z)) / 2) z
    hd; ring1

private theorem tet3_delta19 (h : s5 ^ 2 = 5) (j : Fin 20) : tet3 s5 (tet3Node ((5 - s5) / 10) ((5 + s5) / 10) j 0) (tet3Node ((5 - s5) / 10) ((5 + s5) / 10) j 1) (tet3Node ((5 - s5) / 10) ((5 + s5) / 10) j 2) 19 = if (19 : Fin 20) = j then 1 else 0 := by
  fin_cases j
  · show -(0 * (-1 + 0 * 0 + 0 * 0 + 0 * (-1 + 0) - 5 * (-1 + 0) * 0 + 0 * (-1 + 0 + 0))) = (0 : ℝ)
    ring1
  · show -(0 * (-1 + ((5 - s5) / 10) * ((5 - s5) / 10) + 0 * 0 + 0 * (-1 + 0) - 5 * (-1 + 0) * 0 + ((5 - s5) / 10) * (-1 + 0 + 0))) = (0 : ℝ)
    ring1
  · show -(0 * (-1 + ((5 + s5) / 10) * ((5 + s5) / 10) + 0 * 0 + 0 * (-1 + 0) - 5 * (-1 + 0) * 0 + ((5 + s5) / 10) * (-1 + 0 + 0))) = (0 : ℝ)
    ring1
  · show -(0 * (-1 + 1 * 1 + 0 * 0 + 0 * (-1 + 0) - 5 * (-1 + 0) * 0 + 1 * (-1 + 0 + 0))) = (0 : ℝ)
    ring1
  · show -(0 * (-1 + 0 * 0 + ((5 - s5) / 10) * ((5 - s5) / 10) + ((5 - s5) / 10) * (-1 + 0) - 5 * (-1 + 0) * 0 + 0 * (-1 + ((5 - s5) / 10) + 0))) = (0 : ℝ)
    ring1
  · show -(0 * (-1 + (1 / 3) * (1 / 3) + (1 / 3) * (1 / 3) + (1 / 3) * (-1 + 0) - 5 * (-1 + 0) * 0 + (1 / 3) * (-1 + (1 / 3) + 0))) = (0 : ℝ)
    ring1
  · show -(0 * (-1 + ((5 + s5) / 10) * ((5 + s5) / 10) + ((5 - s5) / 10) * ((5 - s5) / 10) + ((5 - s5) / 10) * (-1 + 0) - 5 * (-1 + 0) * 0 + ((5 + s5) / 10) * (-1 + ((5 - s5) / 10) + 0))) = (0 : ℝ)
    ring1
  · show -(0 * (-1 + 0 * 0 + ((5 + s5) / 10) * ((5 + s5) / 10) + ((5 + s5) / 10) * (-1 + 0) - 5 * (-1 + 0) * 0 + 0 * (-1 + ((5 + s5) / 10) + 0))) = (0 : ℝ)
    ring1
  · show -(0 * (-1 + ((5 - s5) / 10) * ((5 - s5) / 10) + ((5 + s5) / 10) * ((5 + s5) / 10) + ((5 + s5) / 10) * (-1 + 0) - 5 * (-1 + 0) * 0 + ((5 - s5) / 10) * (-1 + ((5 + s5) / 10) + 0))) = (0 : ℝ)
    ring1
  · show -(0 * (-1 + 0 * 0 + 1 * 1 + 1 * (-1 + 0) - 5 * (-1 + 0) * 0 + 0 * (-1 + 1 + 0))) = (0 : ℝ)
    ring1
  · show -(((5 - s5) / 10) * (-1 + 0 * 0 + 0 * 0 + 0 * (-1 + ((5 - s5) / 10)) - 5 * (-1 + ((5 - s5) / 10)) * ((5 - s5) / 10) + 0 * (-1 + 0 + ((5 - s5) / 10)))) = (0 : ℝ)
    linear_combination ((1/40) + (-1/200) * s5 ^ 1) * h
  · show -((1 / 3) * (-1 + (1 / 3) * (1 / 3) + 0 * 0 + 0 * (-1 + (1 / 3)) - 5 * (-1 + (1 / 3)) * (1 / 3) + (1 / 3) * (-1 + 0 + (1 / 3)))) = (0 : ℝ)
    ring1
  · show -(((5 - s5) / 10) * (-1 + ((5 + s5) / 10) * ((5 + s5) / 10) + 0 * 0 + 0 * (-1 + ((5 - s5) / 10)) - 5 * (-1 + ((5 - s5) / 10)) * ((5 - s5) / 10) + ((5 + s5) / 10) * (-1 + 0 + ((5 - s5) / 10)))) = (0 : ℝ)
    linear_combination ((1/40) + (-1/200) * s5 ^ 1) * h
  · show -((1 / 3) * (-1 + 0 * 0 + (1 / 3) * (1 / 3) + (1 / 3) * (-1 + (1 / 3)) - 5 * (-1 + (1 / 3)) * (1 / 3) + 0 * (-1 + (1 / 3) + (1 / 3)))) = (0 : ℝ)
    ring1
  · show -((1 / 3) * (-1 + (1 / 3) * (1 / 3) + (1 / 3) * (1 / 3) + (1 / 3) * (-1 + (1 / 3)) - 5 * (-1 + (1 / 3)) * (1 / 3) + (1 / 3) * (-1 + (1 / 3) + (1 / 3)))) = (0 : ℝ)
    ring1
  · show -(((5 - s5) / 10) * (-1 + 0 * 0 + ((5 + s5) / 10) * ((5 + s5) / 10) + ((5 + s5) / 10) * (-1 + ((5 - s5) / 10)) - 5 * (-1 + ((5 - s5) / 10)) * ((5 - s5) / 10) + 0 * (-1 + ((5 + s5) / 10) + ((5 - s5) / 10)))) = (0 : ℝ)
    linear_combination ((1/40) + (-1/200) * s5 ^ 1) * h
  · show -(((5 + s5) / 10) * (-1 + 0 * 0 + 0 * 0 + 0 * (-1 + ((5 + s5) / 10)) - 5 * (-1 + ((5 + s5) / 10)) * ((5 + s5) / 10) + 0 * (-1 + 0 + ((5 + s5) / 10)))) = (0 : ℝ)
    linear_combination ((1/40) + (1/200) * s5 ^ 1) * h
  · show -(((5 + s5) / 10) * (-1 + ((5 - s5) / 10) * ((5 - s5) / 10) + 0 * 0 + 0 * (-1 + ((5 + s5) / 10)) - 5 * (-1 + ((5 + s5) / 10)) * ((5 + s5) / 10) + ((5 - s5) / 10) * (-1 + 0 + ((5 + s5) / 10)))) = (0 : ℝ)
    linear_combination ((1/40) + (1/200) * s5 ^ 1) * h
  · show -(((5 + s5) / 10) * (-1 + 0 * 0 + ((5 - s5) / 10) * ((5 - s5) / 10) + ((5 - s5) / 10) * (-1 + ((5 + s5) / 10)) - 5 * (-1 + ((5 + s5) / 10)) * ((5 + s5) / 10) + 0 * (-1 + ((5 - s5) / 10) + ((5 + s5) / 10)))) = (0 : ℝ)
    linear_combination ((1/40) + (1/200) * s5 ^ 1) * h
  · show -(1 * (-1 + 0 * 0 + 0 * 0 + 0 * (-1 + 1) - 5 * (-1 + 1) * 1 + 0 * (-1 + 0 + 1))) = (1 : ℝ)
    ring1

private theorem tet3_grad19 (x y z : ℝ) :
    HasDerivAt (fun t => tet3 s5 t y z 19) (tet3Grad s5 x y z 19 0) x ∧
      HasDerivAt (fun t => tet3 s5 x t z 19) (tet3Grad s5 x y z 19 1) y ∧
      HasDerivAt (fun t => tet3 s5 x y t 19) (tet3Grad s5 x y z 19 2) z := by
  refine ⟨?_, ?_, ?_⟩
  · show HasDerivAt (fun t : ℝ => -(z * (-1 + t * t + y * y + y * (-1 + z) - 5 * (-1 + z) * z + t * (-1 + y + z)))) (-(z * (-1 + 2 * x + y + z))) x
    hd; ring1
  · show HasDerivAt (fun t : ℝ => -(z * (-1 + x * x + t * t + t * (-1 + z) - 5 * (-1 + z) * z + x * (-1 + t + z)))) (-(z * (-1 + x + 2 * y + z))) y
    hd; ring1
  · show HasDerivAt (fun t : ℝ => -(t * (-1 + x * x + y * y + y * (-1 + t) - 5 * (-1 + t) * t + x * (-1 + y + t)))) (1 + x - x * x + y - x * y - y * y - 2 * (5 + x + y) * z + 15 * z * z) z
    hd; ring1

theorem tet3_delta (h : s5 ^ 2 = 5) (i j : Fin 20) : tet3 s5 (tet3Node ((5 - s5) / 10) ((5 + s5) / 10) j 0) (tet3Node ((5 - s5) / 10) ((5 + s5) / 10) j 1) (tet3Node ((5 - s5) / 10) ((5 + s5) / 10) j 2) i = if i = j then 1 else 0 := by
  fin_cases i
  · exact tet3_delta0 h j
  · exact tet3_delta1 h j
  · exact tet3_delta2 h j
  · exact tet3_delta3 h j
  · exact tet3_delta4 h j
  · exact tet3_delta5 h j
  · exact tet3_delta6 h j
  · exact tet3_delta7 h j
  · exact tet3_delta8 h j
  · exact tet3_delta9 h j
  · exact tet3_delta10 h j
  · exact tet3_delta11 h j
  · exact tet3_delta12 h j
  · exact tet3_delta13 h j
  · exact tet3_delta14 h j
  · exact tet3_delta15 h j
  · exact tet3_delta16 h j
  · exact tet3_delta17 h j
  · exact tet3_delta18 h j
  · exact tet3_delta19 h j

theorem tet3_mem (h : s5 ^ 2 = 5) (i : Fin 20) : (fun X : Fin 3 → ℝ => tet3 s5 (X 0) (X 1) (X 2) i) ∈ polyDeg 3 3 := by
  fin_cases i
  · show (fun X : Fin 3 → ℝ => -((-1 + X 0 + X 1 + X 2) * (1 + 5 * X 0 * X 0 + 5 * X 1 * X 1 + 5 * (-1 + X 2) * X 2 + X 1 * (-5 + 11 * X 2) + X 0 * (-5 + 11 * X 1 + 11 * X 2)))) ∈ _
    pd
  · show (fun X : Fin 3 → ℝ => (5 * X 0 * (-1 + X 0 + X 1 + X 2) * (-1 - s5 + 2 * s5 * X 0 + (3 + s5) * X 1 + (3 + s5) * X 2)) / 2) ∈ _
    pd
  · show (fun X : Fin 3 → ℝ => (-5 * X 0 * (-1 + X 0 + X 1 + X 2) * (1 - s5 + 2 * s5 * X 0 + (-3 + s5) * X 1 + (-3 + s5) * X 2)) / 2) ∈ _
    pd
  · show (fun X : Fin 3 → ℝ => X 0 * (1 + 5 * X 0 * X 0 + X 1 - X 1 * X 1 + X 2 - X 1 * X 2 - X 2 * X 2 - X 0 * (5 + X 1 + X 2))) ∈ _
    pd
  · show (fun X : Fin 3 → ℝ => (5 * X 1 * (-1 + X 0 + X 1 + X 2) * (-1 - s5 + (3 + s5) * X 0 + 2 * s5 * X 1 + (3 + s5) * X 2)) / 2) ∈ _
    pd
  · show (fun X : Fin 3 → ℝ => -27 * X 0 * X 1 * (-1 + X 0 + X 1 + X 2)) ∈ _
    pd
  · show (fun X : Fin 3 → ℝ => (5 * X 0 * X 1 * (-2 + (3 + s5) * X 0 - (-3 + s5) * X 1)) / 2) ∈ _
    pd
  · show (fun X : Fin 3 → ℝ => (-5 * X 1 * (-1 + X 0 + X 1 + X 2) * (1 - s5 + (-3 + s5) * X 0 + 2 * s5 * X 1 + (-3 + s5) * X 2)) / 2) ∈ _
    pd
  · show (fun X : Fin 3 → ℝ => (-5 * X 0 * X 1 * (2 + (-3 + s5) * X 0 - (3 + s5) * X 1)) / 2) ∈ _
    pd
  · show (fun X : Fin 3 → ℝ => X 1 * (1 - X 0 * X 0 + 5 * X 1 * X 1 + X 2 - X 2 * X 2 - X 1 * (5 + X 2) - X 0 * (-1 + X 1 + X 2))) ∈ _
    pd
  · show (fun X : Fin 3 → ℝ => tet3 s5 (X 0) (X 1) (X 2) 10) ∈ _
    simp only [tet3_10 h]; pd
  · show (fun X : Fin 3 → ℝ => -27 * X 0 * X 2 * (-1 + X 0 + X 1 + X 2)) ∈ _
    pd
  · show (fun X : Fin 3 → ℝ => tet3 s5 (X 0) (X 1) (X 2) 12) ∈ _
    simp only [tet3_12 h]; pd
  · show (fun X : Fin 3 → ℝ => -27 * X 1 * X 2 * (-1 + X 0 + X 1 + X 2)) ∈ _
    pd
  · show (fun X : Fin 3 → ℝ => 27 * X 0 * X 1 * X 2) ∈ _
    pd
  · show (fun X : Fin 3 → ℝ => tet3 s5 (X 0) (X 1) (X 2) 15) ∈ _
    simp only [tet3_15 h]; pd
  · show (fun X : Fin 3 → ℝ => tet3 s5 (X 0) (X 1) (X 2) 16) ∈ _
    simp only [tet3_16 h]; pd
  · show (fun X : Fin 3 → ℝ => (-5 * X 0 * X 2 * (2 + (-3 + s5) * X 0 - (3 + s5) * X 2)) / 2) ∈ _
    pd
  · show (fun X : Fin 3 → ℝ => (-5 * X 1 * X 2 * (2 + (-3 + s5) * X 1 - (3 + s5) * X 2)) / 2) ∈ _
    pd
  · show (fun X : Fin 3 → ℝ => -(X 2 * (-1 + X 0 * X 0 + X 1 * X 1 + X 1 * (-1 + X 2) - 5 * (-1 + X 2) * X 2 + X 0 * (-1 + X 1 + X 2)))) ∈ _
    pd

theorem tet3_grad (h : s5 ^ 2 = 5) (x y z : ℝ) (i : Fin 20) :
    HasDerivAt (fun t => tet3 s5 t y z i) (tet3Grad s5 x y z i 0) x ∧
      HasDerivAt (fun t => tet3 s5 x t z i) (tet3Grad s5 x y z i 1) y ∧
      HasDerivAt (fun t => tet3 s5 x y t i) (tet3Grad s5 x y z i 2) z := by
  fin_cases i
  · exact tet3_grad0 x y z
  · exact tet3_grad1 x y z
  · exact tet3_grad2 x y z
  · exact tet3_grad3 x y z
  · exact tet3_grad4 x y z
  · exact tet3_grad5 x y z
  · exact tet3_grad6 x y z
  · exact tet3_grad7 x y z
  · exact tet3_grad8 x y z
  · exact tet3_grad9 x y z
  · exact tet3_grad10 h x y z
  · exact tet3_grad11 x y z
  · exact tet3_grad12 h x y z
  · exact tet3_grad13 x y z
  · exact tet3_grad14 x y z
  · exact tet3_grad15 h x y z
  · exact tet3_grad16 h x y z
  · exact tet3_grad17 x y z
  · exact tet3_grad18 x y z
  · exact tet3_grad19 x y z

end Serac.Nodal
