import Verif.Model.Tensor
import Mathlib.Analysis.SpecialFunctions.Sqrt
/-!
# Coordinate transforms at a quadrature point

Model of `parent_to_physical` / `physical_to_parent` (src/serac/numerics/functional/finite_element.hpp), of `detail::ShapeCorrection` and
`compute_boundary_area_correction` (shape_aware_functional.hpp) and of the boundary weight (boundary_integral_kernels.hpp).

Simplifications: `double` is ℝ; the element loop over quadrature points is a function of the point index (the loop bodies are independent,
each writes only its own entry); a field with `c` components has its derivative as a `c × dim` array (for a scalar field the code uses a
`dim`-vector, the case `c = 1` row by row, `dot` runs the same loop).  `inv` of a singular matrix divides by zero: outcome `none`.
-/

noncomputable section
namespace Serac.Transform
open Tensor

/-- The two space dimensions the templates are instantiated for. -/
inductive Dim | two | three
deriving DecidableEq

@[reducible] def Dim.n : Dim → ℕ
  | .two => 2
  | .three => 3

/-- Overload set `det` (tensor.hpp:1242-1253). -/
def det : (d : Dim) → Mat ℝ d.n d.n → ℝ
  | .two => det2
  | .three => det3

/-- Overload set `inv` (tensor.hpp:1592-1627). -/
def inv : (d : Dim) → Mat ℝ d.n d.n → Option (Mat ℝ d.n d.n)
  | .two => inv2
  | .three => inv3

/-- A vector or matrix times / divided by a number (tensor.hpp, `operator*`, `operator/` componentwise). -/
def smulV {n : ℕ} (A : Vec ℝ n) (s : ℝ) : Vec ℝ n := fun i => A i * s
def smulM {m n : ℕ} (A : Mat ℝ m n) (s : ℝ) : Mat ℝ m n := fun i j => A i j * s
def divV {n : ℕ} (A : Vec ℝ n) (s : ℝ) : Vec ℝ n := fun i => A i / s

/-- Values and jacobians as stored by `compute_geometric_factors` (geometric_factors.cpp:42-57): `J_q[e](j, i, q) = gradient(i, j)`, with
`gradient(i, j)` the derivative of coordinate `i` in direction `ξ_j`. -/
def storeJacobian {m n q : ℕ} (gradient : Fin q → Mat ℝ m n) : Fin n → Fin m → Fin q → ℝ := fun j i k => gradient k i j

/-- `J[row][col] = jacobians(col, row, k)` (finite_element.hpp:252-257). -/
def loadJ {n q : ℕ} (jacobians : Fin n → Fin n → Fin q → ℝ) (k : Fin q) : Mat ℝ n n := fun row col => jacobians col row k

/-- `J_T[row][col] = jacobians(row, col, k)` (finite_element.hpp:293-298). -/
def loadJT {n q : ℕ} (jacobians : Fin n → Fin n → Fin q → ℝ) (k : Fin q) : Mat ℝ n n := fun row col => jacobians row col k

section
variable {q : ℕ} (d : Dim) (jacobians : Fin d.n → Fin d.n → Fin q → ℝ)

/-- `parent_to_physical<H1>` and `<L2>` (finite_element.hpp:259-262). -/
def parentToPhysicalH1 {c : ℕ} (u : Fin q → Vec ℝ c × Mat ℝ c d.n) (k : Fin q) : Option (Vec ℝ c × Mat ℝ c d.n) :=
  let J := loadJ jacobians k
  (inv d J).map fun Ji => ((u k).1, dot (u k).2 Ji)

/-- `physical_to_parent<H1>` and `<L2>` (finite_element.hpp:300-305). -/
def physicalToParentH1 {c : ℕ} (v : Fin q → Vec ℝ c × Mat ℝ c d.n) (k : Fin q) : Option (Vec ℝ c × Mat ℝ c d.n) :=
  let JT := loadJT jacobians k
  let dv := det d JT
  (inv d JT).map fun JTi => (smulV (v k).1 dv, smulM (dot (v k).2 JTi) dv)

/-- `physical_to_parent<QOI>` (finite_element.hpp:317-319). -/
def physicalToParentQOI (v : Fin q → ℝ) (k : Fin q) : ℝ :=
  let JT := loadJT jacobians k
  let dv := det d JT
  v k * dv
end

/-- `parent_to_physical<HCURL>`, dim = 2 (finite_element.hpp:264-270): the derivative is the scalar curl. -/
def parentToPhysicalCurl2 {q : ℕ} (jacobians : Fin 2 → Fin 2 → Fin q → ℝ) (u : Fin q → Vec ℝ 2 × ℝ) (k : Fin q) :
    Option (Vec ℝ 2 × ℝ) :=
  let J := loadJ jacobians k
  (inv2 J).map fun Ji => (dotVM (u k).1 Ji, (u k).2 / det2 J)

/-- `parent_to_physical<HCURL>`, dim = 3 (finite_element.hpp:264-270). -/
def parentToPhysicalCurl3 {q : ℕ} (jacobians : Fin 3 → Fin 3 → Fin q → ℝ) (u : Fin q → Vec ℝ 3 × Vec ℝ 3) (k : Fin q) :
    Option (Vec ℝ 3 × Vec ℝ 3) :=
  let J := loadJ jacobians k
  (inv3 J).map fun Ji => (dotVM (u k).1 Ji, dotVM (divV (u k).2 (det3 J)) (transpose J))

/-- `physical_to_parent<HCURL>`, dim = 2 (finite_element.hpp:310-315). -/
def physicalToParentCurl2 {q : ℕ} (jacobians : Fin 2 → Fin 2 → Fin q → ℝ) (v : Fin q → Vec ℝ 2 × ℝ) (k : Fin q) :
    Option (Vec ℝ 2 × ℝ) :=
  let JT := loadJT jacobians k
  let dv := det2 JT
  (inv2 JT).map fun JTi => (smulV (dotVM (v k).1 JTi) dv, (v k).2)

/-- `physical_to_parent<HCURL>`, dim = 3 (finite_element.hpp:310-315). -/
def physicalToParentCurl3 {q : ℕ} (jacobians : Fin 3 → Fin 3 → Fin q → ℝ) (v : Fin q → Vec ℝ 3 × Vec ℝ 3) (k : Fin q) :
    Option (Vec ℝ 3 × Vec ℝ 3) :=
  let JT := loadJT jacobians k
  let dv := det3 JT
  (inv3 JT).map fun JTi => (smulV (dotVM (v k).1 JTi) dv, dotVM (v k).2 (transpose JT))

/-! ### Shape corrections -/

/-- Sum of two tensors, componentwise. -/
def addM {m n : ℕ} (A B : Mat ℝ m n) : Mat ℝ m n := fun i j => A i j + B i j
def addV {n : ℕ} (A B : Vec ℝ n) : Vec ℝ n := fun i => A i + B i

/-- `ShapeCorrection` (shape_aware_functional.hpp:38-49, members 125-141). -/
structure ShapeCorrection (d : Dim) where
  J : Mat ℝ d.n d.n
  detJ : ℝ
  invJ : Mat ℝ d.n d.n
  invJT : Mat ℝ d.n d.n

/-- Constructor (shape_aware_functional.hpp:46-49); `dp` is `get<DERIVATIVE>(p)`. -/
def mkShapeCorrection (d : Dim) (dp : Mat ℝ d.n d.n) : Option (ShapeCorrection d) :=
  let J := addM (identity d.n) dp
  (inv d J).map fun invJ => ⟨J, det d J, invJ, transpose invJ⟩

/-- `modify_trial_argument`, H1 and L2 (shape_aware_functional.hpp:63-73). -/
def ShapeCorrection.trialH1 {d : Dim} (s : ShapeCorrection d) {c : ℕ} (u : Vec ℝ c × Mat ℝ c d.n) : Vec ℝ c × Mat ℝ c d.n :=
  (u.1, dot u.2 s.invJ)

/-- `modify_trial_argument`, HCURL in 2D (75-79). -/
def ShapeCorrection.trialCurl2 (s : ShapeCorrection .two) (u : Vec ℝ 2 × ℝ) : Vec ℝ 2 × ℝ := (dotVM u.1 s.invJ, u.2 / s.detJ)

/-- `modify_trial_argument`, HCURL in 3D (75-76, 80-83). -/
def ShapeCorrection.trialCurl3 (s : ShapeCorrection .three) (u : Vec ℝ 3 × Vec ℝ 3) : Vec ℝ 3 × Vec ℝ 3 :=
  (dotVM u.1 s.invJ, dotVM u.2 (transpose s.J))

/-- `modify_shape_aware_qf_return`, `double` (101-102). -/
def ShapeCorrection.testQOI {d : Dim} (s : ShapeCorrection d) (v : ℝ) : ℝ := s.detJ * v

/-- `modify_shape_aware_qf_return`, H1 and L2 (104-109). -/
def ShapeCorrection.testH1 {d : Dim} (s : ShapeCorrection d) {c : ℕ} (v : Vec ℝ c × Mat ℝ c d.n) : Vec ℝ c × Mat ℝ c d.n :=
  (smulV v.1 s.detJ, smulM (dot v.2 s.invJT) s.detJ)

/-- `modify_shape_aware_qf_return`, HCURL in 2D (110-111, 115-117). -/
def ShapeCorrection.testCurl2 (s : ShapeCorrection .two) (v : Vec ℝ 2 × ℝ) : Vec ℝ 2 × ℝ :=
  (smulV (dotVM v.1 s.invJT) s.detJ, v.2)

/-- `modify_shape_aware_qf_return`, HCURL in 3D (110-114). -/
def ShapeCorrection.testCurl3 (s : ShapeCorrection .three) (v : Vec ℝ 3 × Vec ℝ 3) : Vec ℝ 3 × Vec ℝ 3 :=
  (smulV (dotVM v.1 s.invJT) s.detJ, dotVM v.2 s.J)

/-- The position argument handed to the integrand (`apply_shape_aware_qf_helper`, 213-219): value and derivative with respect to ξ. -/
def shapedPosition (d : Dim) (X p : Vec ℝ d.n) (dX dp : Mat ℝ d.n d.n) : Vec ℝ d.n × Mat ℝ d.n d.n :=
  (addV X p, addM dX (dot dp dX))

/-- `norm` of a vector (tensor.hpp:1040-1045). -/
def norm {n : ℕ} (A : Vec ℝ n) : ℝ := Real.sqrt (sqNormV A)

/-- `cross` of the columns of a face Jacobian: one column in 2D (tensor.hpp:914-925), two in 3D (906-910). -/
def crossFace2 (A : Vec ℝ 2) : Vec ℝ 2 := ![A 1, -A 0]

/-- `compute_boundary_area_correction` in 3D (shape_aware_functional.hpp:156-174): both derivatives are with respect to ξ on the face. -/
def areaCorrection3 (dX dp : Mat ℝ 3 2) : ℝ := norm (crossCols (addM dX dp)) / norm (crossCols dX)

/-- `compute_boundary_area_correction` in 2D (156-174). -/
def areaCorrection2 (dX dp : Vec ℝ 2) : ℝ := norm (crossFace2 (addV dX dp)) / norm (crossFace2 dX)

/-- Boundary `batch_apply_qf` at one point, 3D (boundary_integral_kernels.hpp:137-160): load the face Jacobian, weight by its area. -/
def boundaryApply3 {c q : ℕ} (qf : Vec ℝ 3 × Mat ℝ 3 2 → Vec ℝ c) (X : Fin 3 → Fin q → ℝ) (jacobians : Fin 2 → Fin 3 → Fin q → ℝ)
    (k : Fin q) : Vec ℝ c :=
  let x : Vec ℝ 3 := fun j => X j k
  let J : Mat ℝ 3 2 := fun j l => jacobians l j k
  let scale := norm (crossCols J)
  smulV (qf (x, J)) scale

/-- Boundary `batch_apply_qf` at one point, 2D (boundary_integral_kernels.hpp:114-135). -/
def boundaryApply2 {c q : ℕ} (qf : Vec ℝ 2 × Vec ℝ 2 → Vec ℝ c) (X : Fin 2 → Fin q → ℝ) (jacobians : Fin 1 → Fin 2 → Fin q → ℝ)
    (k : Fin q) : Vec ℝ c :=
  let x : Vec ℝ 2 := fun j => X j k
  let J : Vec ℝ 2 := fun j => jacobians 0 j k
  let scale := norm (crossFace2 J)
  smulV (qf (x, J)) scale

/-- `ShapeAwareBoundaryIntegrandWrapper` (shape_aware_functional.hpp:480-486): the integrand sees position plus shape (value and face
derivative), its result is multiplied by the area correction. -/
def shapedBoundaryQf3 {c : ℕ} (qf : Vec ℝ 3 × Mat ℝ 3 2 → Vec ℝ c) (p : Vec ℝ 3 × Mat ℝ 3 2) (x : Vec ℝ 3 × Mat ℝ 3 2) : Vec ℝ c :=
  smulV (qf (addV x.1 p.1, addM x.2 p.2)) (areaCorrection3 x.2 p.2)

def shapedBoundaryQf2 {c : ℕ} (qf : Vec ℝ 2 × Vec ℝ 2 → Vec ℝ c) (p : Vec ℝ 2 × Vec ℝ 2) (x : Vec ℝ 2 × Vec ℝ 2) : Vec ℝ c :=
  smulV (qf (addV x.1 p.1, addV x.2 p.2)) (areaCorrection2 x.2 p.2)

end Serac.Transform
