import Verif.Model.ShapedResidual
import Verif.Model.SolidTangent
import Verif.Model.StaticAdjoint
import Verif.Model.TransientAdjoint
/-!
# Derivatives of shape-aware functionals

`computeTimestepShapeSensitivity` and `computeDualShapeSensitivity` (`/repo/src/serac/physics/solid_mechanics.hpp` 1421-1433, 1495-1505; `heat_transfer.hpp` 946-957)
evaluate the residual with `differentiate_wrt` on the shape displacement, assemble the gradient (`functional.hpp` 655-735) and multiply its transpose with the adjoint.
The shape displacement enters every integrand: through the correction of the derivatives of the fields, the position that the integrand sees, the correction of the result
(`shape_aware_functional.hpp` 38-142, 336-438) and on faces the area correction (156-174, 473-499).  Here are the functional with arbitrary integrands and the derivatives
that dual numbers carry through these steps, with respect to the shape displacement, to the field and to its rate.

The derivatives that dual numbers carry through an integrand itself are the parameter `D` of a term; the theorems say when they are the true ones.  Dual numbers carry all
partial derivatives at a point at once; here the tangent for one direction is computed with the same product rules, and the entries of the derivative are its values on
basis directions.  A direction in an argument that is not differentiated is zero.  Blocks of a derivative whose type is `zero` because an integrand does not use an
argument are stored as zeros (they are not stored in the code).  Other simplifications as in `Verif.Model.ShapedResidual` and `Verif.Model.SolidTangent`.
-/

noncomputable section
namespace Serac.Shaped
open Serac.Tensor Serac.Transform Serac.Kernels Serac.Solid Serac.Loads

/-- Value and derivative of a field of `c` components, inside and on a face. -/
abbrev Field (d : Dim) (c : ℕ) := Vec ℝ c × Mat ℝ c d.n
abbrev FaceField (d : Dim) (c : ℕ) := Vec ℝ c × Mat ℝ c (faceDim d)

/-- The arguments of a domain integrand (position, field, rate), and of a boundary integrand (position, field). -/
abbrev Arg (d : Dim) (c : ℕ) := Point d × Field d c × Field d c
abbrev FaceArg (d : Dim) (c : ℕ) := FacePoint d × FaceField d c

/-! ## Dual numbers through the steps of a point -/

/-- `det` (tensor.hpp:1242-1253) with the product rule. -/
def detD : (d : Dim) → Mat ℝ d.n d.n → Mat ℝ d.n d.n → ℝ
  | .two, A, B => (B 0 0 * A 1 1 + A 0 0 * B 1 1) - (B 0 1 * A 1 0 + A 0 1 * B 1 0)
  | .three, A, B =>
    ((B 0 0 * A 1 1 + A 0 0 * B 1 1) * A 2 2 + A 0 0 * A 1 1 * B 2 2) + ((B 0 1 * A 1 2 + A 0 1 * B 1 2) * A 2 0 + A 0 1 * A 1 2 * B 2 0) +
      ((B 0 2 * A 1 0 + A 0 2 * B 1 0) * A 2 1 + A 0 2 * A 1 0 * B 2 1) - ((B 0 0 * A 1 2 + A 0 0 * B 1 2) * A 2 1 + A 0 0 * A 1 2 * B 2 1) -
      ((B 0 1 * A 1 0 + A 0 1 * B 1 0) * A 2 2 + A 0 1 * A 1 0 * B 2 2) - ((B 0 2 * A 1 1 + A 0 2 * B 1 1) * A 2 0 + A 0 2 * A 1 1 * B 2 0)

/-- `inv` of a dual matrix (tuple_tensor_dual_functions.hpp:474-487; `Tensor.invDual`). -/
def invD {n : ℕ} (invA dA : Mat ℝ n n) : Mat ℝ n n := fun i j => -∑ k, ∑ l, invA l j * (invA i k * dA k l)

/-- `cross` (tensor.hpp:906-925). -/
def crossD : (d : Dim) → Mat ℝ d.n (faceDim d) → Mat ℝ d.n (faceDim d) → Vec ℝ d.n
  | .two, _, B => crossFace2 fun i => B i 0
  | .three, A, B => ![(B 1 0 * A 2 1 + A 1 0 * B 2 1) - (B 2 0 * A 1 1 + A 2 0 * B 1 1), (B 2 0 * A 0 1 + A 2 0 * B 0 1) - (B 0 0 * A 2 1 + A 0 0 * B 2 1),
      (B 0 0 * A 1 1 + A 0 0 * B 1 1) - (B 1 0 * A 0 1 + A 1 0 * B 0 1)]

/-- `norm` (tensor.hpp:1040-1045), the square root of a sum of squares. -/
def normD {n : ℕ} (A B : Vec ℝ n) : ℝ := (∑ i, (B i * A i + A i * B i)) / (2 * Transform.norm A)

/-- The tangent at one quadrature point of `shapedPoint` for the directions `dp`, `du`, `da` of shape displacement, field and rate (`D`: tangents of the integrand). -/
def pointTangent {d : Dim} {c : ℕ} (qf : Integrand d c) (D : Arg d c → Arg d c → Field d c) (X : Point d) (z w : Arg d c) : Field d c :=
  let J := X.2
  let Ji := (inv d J).getD 0
  let JTi := (inv d (transpose J)).getD 0
  -- to the physical element
  let P := dot z.1.2 Ji
  let U := dot z.2.1.2 Ji
  let A := dot z.2.2.2 Ji
  let dP := dot w.1.2 Ji
  let dU := dot w.2.1.2 Ji
  let dA := dot w.2.2.2 Ji
  -- the correction
  let K := addM (identity d.n) P
  let Ki := (inv d K).getD 0
  let dKi := invD Ki dP
  let k := det d K
  let dk := detD d K dP
  -- the arguments of the integrand
  let y : Arg d c := (shapedPosition d X.1 z.1.1 J P, (z.2.1.1, dot U Ki), (z.2.2.1, dot A Ki))
  let dy : Arg d c := ((w.1.1, dot dP J), (w.2.1.1, addM (dot dU Ki) (dot U dKi)), (w.2.2.1, addM (dot dA Ki) (dot A dKi)))
  let r := (qf y.1 y.2.1 y.2.2).getD (0, 0)
  let dr := D y dy
  -- the correction of the result
  let s : Vec ℝ c := fun i => dr.1 i * k + r.1 i * dk
  let f : Mat ℝ c d.n := addM (smulM (addM (dot dr.2 (transpose Ki)) (dot r.2 (transpose dKi))) k) (smulM (dot r.2 (transpose Ki)) dk)
  -- to the parent element
  (smulV s (det d (transpose J)), smulM (dot f JTi) (det d (transpose J)))

/-- A boundary integrand at a point: wrapper (shape_aware_functional.hpp:490-498, 156-174) and area factor (boundary_integral_kernels.hpp:151-153). -/
def facePoint {d : Dim} {c : ℕ} (qf : FaceArg d c → Option (Vec ℝ c)) (X : FacePoint d) (z : FaceArg d c) : Option (Vec ℝ c) :=
  open Classical in (qf ((addV X.1 z.1.1, addM X.2 z.1.2), z.2)).bind fun r =>
    if Transform.norm (crossAt d X.2) = 0 then none
    else some (smulV (smulV r (Transform.norm (crossAt d (addM X.2 z.1.2)) / Transform.norm (crossAt d X.2))) (Transform.norm (crossAt d X.2)))

/-- Its tangent. -/
def faceTangent {d : Dim} {c : ℕ} (qf : FaceArg d c → Option (Vec ℝ c)) (D : FaceArg d c → FaceArg d c → Vec ℝ c) (X : FacePoint d) (z w : FaceArg d c) : Vec ℝ c :=
  let y : FaceArg d c := ((addV X.1 z.1.1, addM X.2 z.1.2), z.2)
  let r := (qf y).getD 0
  let dr := D y w
  let n := crossAt d y.1.2
  let a := Transform.norm (crossAt d X.2)
  fun i => (dr i * (Transform.norm n / a) + r i * (normD n (crossD d y.1.2 w.1.2) / a)) * a

/-! ## The functional -/

/-- A domain integral: its elements, whether the flux of the integrand is of type `zero`, the integrand at each point and what dual numbers carry through it. -/
structure DomainTerm (d : Dim) (c : ℕ) where
  elements : List ℕ
  zf : Bool
  qf : ℕ → ℝ → Integrand d c
  D : ℕ → ℝ → Arg d c → Arg d c → Field d c

/-- A boundary integral. -/
structure FaceTerm (d : Dim) (c : ℕ) where
  elements : List ℕ
  qf : ℝ → FaceArg d c → Option (Vec ℝ c)
  D : ℝ → FaceArg d c → FaceArg d c → Vec ℝ c

/-- A shape-aware functional whose test and trial spaces have `c` components; `num` and `numP` number the dofs of the fields and of the shape displacement. -/
structure Form (d : Dim) (c : ℕ) where
  M : Mesh d
  V : Space
  E : Elem ℝ
  EF : Elem ℝ
  nn : ℕ
  conn : ℕ → ℕ → Fin nn
  connF : ℕ → ℕ → Fin nn
  N : ℕ
  num : Fin nn × Fin c ≃ Fin N
  m : ℕ
  numP : Fin V.np × Fin d.n ≃ Fin m
  terms : List (DomainTerm d c)
  faces : List (FaceTerm d c)

/-- The entries of a matrix of rectangular element matrices that belong to a test dof and a trial dof (`functional.hpp` 700-729). -/
def assembleQ {nn nn' c m : ℕ} (ndof ndof' ne : ℕ) (conn : ℕ → ℕ → Fin nn) (conn' : ℕ → ℕ → Fin nn') (dK : ℕ → ℝ) (r : Fin nn × Fin c) (q : Fin nn' × Fin m) : ℝ :=
  ∑ e ∈ Finset.range ne, ∑ a ∈ Finset.range ndof, ∑ b ∈ Finset.range ndof',
    if conn e a = r.1 ∧ conn' e b = q.1 then dK ((e * (m * ndof') + (q.2 * ndof' + b)) * (c * ndof) + (r.2 * ndof + a)) else 0

/-- The derivative stored at a point: the values of a tangent on basis directions. -/
def entries {c m n k : ℕ} (T : Vec ℝ m × Mat ℝ m n → Vec ℝ c × Mat ℝ c k) : Deriv ℝ where
  d00 i j := if h : i < c ∧ j < m then (T (Pi.single ⟨j, h.2⟩ 1, 0)).1 ⟨i, h.1⟩ else 0
  d01 i j l := if h : i < c ∧ j < m ∧ l < n then (T (0, Matrix.single ⟨j, h.2.1⟩ ⟨l, h.2.2⟩ 1)).1 ⟨i, h.1⟩ else 0
  d10 i q j := if h : (i < c ∧ q < k) ∧ j < m then (T (Pi.single ⟨j, h.2⟩ 1, 0)).2 ⟨i, h.1.1⟩ ⟨q, h.1.2⟩ else 0
  d11 i q j l := if h : (i < c ∧ q < k) ∧ j < m ∧ l < n then (T (0, Matrix.single ⟨j, h.2.1⟩ ⟨l, h.2.2⟩ 1)).2 ⟨i, h.1.1⟩ ⟨q, h.1.2⟩ else 0

namespace Form
variable {d : Dim} {c : ℕ} (F : Form d c)

abbrev Positions := Fin F.M.ng → Vec ℝ d.n

/-- The nodal fields with given dofs. -/
def nodal (u : Ode.Vec F.N) : Fin F.nn → Vec ℝ c := fun n i => u (F.num (n, i))
def shape (q : Ode.Vec F.m) : Fin F.V.np → Vec ℝ d.n := fun n i => q (F.numP (n, i))

/-- Value and derivative at a point of an element, of a face. -/
def fieldAt (u : Fin F.nn → Vec ℝ c) (e Q : ℕ) : Field d c :=
  (fun i => (interpolate F.E fun t => gatherE F.E.ndof F.conn u (e * (c * F.E.ndof) + t)).value Q i,
   fun i j => (interpolate F.E fun t => gatherE F.E.ndof F.conn u (e * (c * F.E.ndof) + t)).grad Q i j)
def fieldOn (u : Fin F.nn → Vec ℝ c) (e Q : ℕ) : FaceField d c := Faces.interp d c F.EF (fun t => gatherE F.EF.ndof F.connF u (e * (c * F.EF.ndof) + t)) Q

/-- All arguments at a point of an element, of a face. -/
def argsAt (u a : Ode.Vec F.N) (q : Ode.Vec F.m) (e Q : ℕ) : Arg d c :=
  (inside F.V.W F.V.conn (F.shape q) e Q, F.fieldAt (F.nodal u) e Q, F.fieldAt (F.nodal a) e Q)
def argsOn (u : Ode.Vec F.N) (q : Ode.Vec F.m) (e Q : ℕ) : FaceArg d c := (onFace F.V.WF F.V.connF (F.shape q) e Q, F.fieldOn (F.nodal u) e Q)

def at_ (pos : F.Positions) (e Q : ℕ) : Point d := inside F.M.G F.M.conn pos e Q
def on_ (pos : F.Positions) (e Q : ℕ) : FacePoint d := onFace F.M.GF F.M.connF pos e Q

/-- The integrals as the kernels see them. -/
def pointFn (pos : F.Positions) (T : DomainTerm d c) (t : ℝ) (a : Ode.Vec F.N) (q : Ode.Vec F.m) : PointFn ℝ := fun k v g =>
  let e := T.elements.getD (k / F.E.npts) 0
  let Q := k % F.E.npts
  let r := (shapedPoint (T.qf k t) (F.at_ pos e Q) (inside F.V.W F.V.conn (F.shape q) e Q) (fun i => v i, fun i j => g i j) (F.fieldAt (F.nodal a) e Q)).getD (0, 0)
  (flatV r.1, flatM r.2)
def faceFn (pos : F.Positions) (T : FaceTerm d c) (t : ℝ) (q : Ode.Vec F.m) : PointFn ℝ := fun k v g =>
  let e := T.elements.getD (k / F.EF.npts) 0
  let Q := k % F.EF.npts
  (flatV ((facePoint (T.qf t) (F.on_ pos e Q) (onFace F.V.WF F.V.connF (F.shape q) e Q, (fun i => v i, fun i j => g i j))).getD 0), fun _ _ => 0)

/-- `(*residual_)(time, shape_displacement, u, rate)`: all integrals in the order of their calls. -/
def residual (pos : F.Positions) (t : ℝ) (u a : Ode.Vec F.N) (q : Ode.Vec F.m) : Ode.Vec F.N := fun k =>
  let n := F.num.symm k
  F.faces.foldl (fun r T => r + scatterE F.EF.ndof F.M.nf F.connF
      (evalKernel F.EF F.EF c c false true (F.faceFn pos T t q) T.elements (gatherE F.EF.ndof F.connF (F.nodal u)) fun _ => 0) n.1 n.2)
    (scatterE F.E.ndof F.M.ne F.conn
      (F.terms.foldl (fun r T => evalKernel F.E F.E c c false T.zf (F.pointFn pos T t a q) T.elements (gatherE F.E.ndof F.conn (F.nodal u)) r) fun _ => 0) n.1 n.2)

/-! ### Gradients -/

def domainShape (T : DomainTerm d c) : Shape := ⟨false, false, T.zf, T.zf⟩
def faceShape : Shape := ⟨false, false, true, true⟩

/-- The derivatives stored at the points of an integral with respect to the shape displacement, to the field and to its rate. -/
def shapeGrad (pos : F.Positions) (T : DomainTerm d c) (t : ℝ) (u a : Ode.Vec F.N) : ℕ → (ℕ → ℝ) → (ℕ → ℕ → ℝ) → Deriv ℝ := fun k v g =>
  let e := T.elements.getD (k / F.E.npts) 0
  let Q := k % F.E.npts
  entries fun dp => pointTangent (T.qf k t) (T.D k t) (F.at_ pos e Q)
    ((fun i => v i, fun i j => g i j), F.fieldAt (F.nodal u) e Q, F.fieldAt (F.nodal a) e Q) (dp, (0, 0), (0, 0))
def fieldGrad (pos : F.Positions) (T : DomainTerm d c) (t : ℝ) (a : Ode.Vec F.N) (q : Ode.Vec F.m) : ℕ → (ℕ → ℝ) → (ℕ → ℕ → ℝ) → Deriv ℝ := fun k v g =>
  let e := T.elements.getD (k / F.E.npts) 0
  let Q := k % F.E.npts
  entries fun du => pointTangent (T.qf k t) (T.D k t) (F.at_ pos e Q)
    (inside F.V.W F.V.conn (F.shape q) e Q, (fun i => v i, fun i j => g i j), F.fieldAt (F.nodal a) e Q) ((0, 0), du, (0, 0))
def rateGrad (pos : F.Positions) (T : DomainTerm d c) (t : ℝ) (u : Ode.Vec F.N) (q : Ode.Vec F.m) : ℕ → (ℕ → ℝ) → (ℕ → ℕ → ℝ) → Deriv ℝ := fun k v g =>
  let e := T.elements.getD (k / F.E.npts) 0
  let Q := k % F.E.npts
  entries fun da => pointTangent (T.qf k t) (T.D k t) (F.at_ pos e Q)
    (inside F.V.W F.V.conn (F.shape q) e Q, F.fieldAt (F.nodal u) e Q, (fun i => v i, fun i j => g i j)) ((0, 0), (0, 0), da)

/-- A boundary integral has no flux. -/
def noFlux {c k : ℕ} (v : Vec ℝ c) : Vec ℝ c × Mat ℝ c k := (v, 0)
def faceShapeGrad (pos : F.Positions) (T : FaceTerm d c) (t : ℝ) (u : Ode.Vec F.N) : ℕ → (ℕ → ℝ) → (ℕ → ℕ → ℝ) → Deriv ℝ := fun k v g =>
  let e := T.elements.getD (k / F.EF.npts) 0
  let Q := k % F.EF.npts
  entries fun dp => noFlux (k := faceDim d) (faceTangent (T.qf t) (T.D t) (F.on_ pos e Q) ((fun i => v i, fun i j => g i j), F.fieldOn (F.nodal u) e Q) (dp, (0, 0)))
def faceFieldGrad (pos : F.Positions) (T : FaceTerm d c) (t : ℝ) (q : Ode.Vec F.m) : ℕ → (ℕ → ℝ) → (ℕ → ℕ → ℝ) → Deriv ℝ := fun k v g =>
  let e := T.elements.getD (k / F.EF.npts) 0
  let Q := k % F.EF.npts
  entries fun du => noFlux (k := faceDim d)
    (faceTangent (T.qf t) (T.D t) (F.on_ pos e Q) (onFace F.V.WF F.V.connF (F.shape q) e Q, (fun i => v i, fun i j => g i j)) ((0, 0), du))

/-- The buffers of derivatives after an evaluation; `old` is what they held before. -/
def shapeBuffer (pos : F.Positions) (old : Buffer ℝ) (t : ℝ) (u a : Ode.Vec F.N) (q : Ode.Vec F.m) (T : DomainTerm d c) : Buffer ℝ :=
  evalDerivs F.E.npts F.V.W d.n (F.shapeGrad pos T t u a) T.elements (gatherE F.V.W.ndof F.V.conn (F.shape q)) old
def fieldBuffer (pos : F.Positions) (old : Buffer ℝ) (t : ℝ) (u a : Ode.Vec F.N) (q : Ode.Vec F.m) (T : DomainTerm d c) : Buffer ℝ :=
  evalDerivs F.E.npts F.E c (F.fieldGrad pos T t a q) T.elements (gatherE F.E.ndof F.conn (F.nodal u)) old
def rateBuffer (pos : F.Positions) (old : Buffer ℝ) (t : ℝ) (u a : Ode.Vec F.N) (q : Ode.Vec F.m) (T : DomainTerm d c) : Buffer ℝ :=
  evalDerivs F.E.npts F.E c (F.rateGrad pos T t u q) T.elements (gatherE F.E.ndof F.conn (F.nodal a)) old
def faceShapeBuffer (pos : F.Positions) (old : Buffer ℝ) (t : ℝ) (u : Ode.Vec F.N) (q : Ode.Vec F.m) (T : FaceTerm d c) : Buffer ℝ :=
  evalDerivs F.EF.npts F.V.WF d.n (F.faceShapeGrad pos T t u) T.elements (gatherE F.V.WF.ndof F.V.connF (F.shape q)) old
def faceFieldBuffer (pos : F.Positions) (old : Buffer ℝ) (t : ℝ) (u : Ode.Vec F.N) (q : Ode.Vec F.m) (T : FaceTerm d c) : Buffer ℝ :=
  evalDerivs F.EF.npts F.EF c (F.faceFieldGrad pos T t q) T.elements (gatherE F.EF.ndof F.connF (F.nodal u)) old

/-- `assemble(drdshape)` -/
def shapeMatrix (pos : F.Positions) (old : Buffer ℝ) (t : ℝ) (u a : Ode.Vec F.N) (q : Ode.Vec F.m) : Fin F.N → Fin F.m → ℝ := fun k j =>
  F.faces.foldl (fun x T => x + assembleQ F.EF.ndof F.V.WF.ndof F.M.nf F.connF F.V.connF
      (gradientKernel F.EF F.V.WF c d.n faceShape (F.faceShapeBuffer pos old t u q T) T.elements fun _ => 0) (F.num.symm k) (F.numP.symm j))
    (assembleQ F.E.ndof F.V.W.ndof F.M.ne F.conn F.V.conn
      (F.terms.foldl (fun K T => gradientKernel F.E F.V.W c d.n (domainShape T) (F.shapeBuffer pos old t u a q T) T.elements K) fun _ => 0) (F.num.symm k) (F.numP.symm j))

/-- `assemble(drdu)` -/
def fieldMatrix (pos : F.Positions) (old : Buffer ℝ) (t : ℝ) (u a : Ode.Vec F.N) (q : Ode.Vec F.m) : Elim.Mat F.N := fun k j =>
  F.faces.foldl (fun x T => x + assembleQ F.EF.ndof F.EF.ndof F.M.nf F.connF F.connF
      (gradientKernel F.EF F.EF c c faceShape (F.faceFieldBuffer pos old t u q T) T.elements fun _ => 0) (F.num.symm k) (F.num.symm j))
    (assembleQ F.E.ndof F.E.ndof F.M.ne F.conn F.conn
      (F.terms.foldl (fun K T => gradientKernel F.E F.E c c (domainShape T) (F.fieldBuffer pos old t u a q T) T.elements K) fun _ => 0) (F.num.symm k) (F.num.symm j))

/-- `assemble(drdrate)`; boundary integrals do not use the rate. -/
def rateMatrix (pos : F.Positions) (old : Buffer ℝ) (t : ℝ) (u a : Ode.Vec F.N) (q : Ode.Vec F.m) : Elim.Mat F.N := fun k j =>
  assembleQ F.E.ndof F.E.ndof F.M.ne F.conn F.conn
    (F.terms.foldl (fun K T => gradientKernel F.E F.E c c (domainShape T) (F.rateBuffer pos old t u a q T) T.elements K) fun _ => 0) (F.num.symm k) (F.num.symm j)

/-- The quasi-static analysis with its shape sensitivities: `Verif.Model.StaticAdjoint` with the shape displacement in the place of the parameter
(solid_mechanics.hpp:1421-1433 is 1407-1417 with `shape_displacement_`). -/
def analysis (pos : F.Positions) (old old' : Buffer ℝ) (a : Ode.Vec F.N) (conds : List (List (Fin F.N))) (solve : ℝ → Ode.Vec F.m → Ode.Vec F.N → Ode.Vec F.N)
    (linear : Elim.Mat F.N → Ode.Vec F.N → Ode.Vec F.N) : StaticAdj.Problem F.N F.m where
  conds := conds
  residual t u q := F.residual pos t u a q
  K t u q := F.fieldMatrix pos old t u a q
  P t u q := F.shapeMatrix pos old' t u a q
  solve := solve
  linear := linear

/-- The transient analysis of heat transfer with its shape sensitivities: `Verif.Model.TransientAdjoint` with the shape displacement in the place of the parameter
(heat_transfer.hpp:946-957 is 923-935 with `shape_displacement_`). -/
def transient (pos : F.Positions) (old old' : Buffer ℝ) (conds : List (List (Fin F.N))) (solve : ℝ → ℝ → Ode.Vec F.m → Ode.Vec F.N → Ode.Vec F.N)
    (linear : Elim.Mat F.N → Ode.Vec F.N → Ode.Vec F.N) : TransientAdj.Problem F.N F.m where
  conds := conds
  K t u a q := F.fieldMatrix pos old t u a q
  M t u a q := F.rateMatrix pos old t u a q
  P t u a q := F.shapeMatrix pos old' t u a q
  solve := solve
  linear := linear

end Form

/-! ## Solids and heat transfer as functionals -/

/-- The load of `Verif.Model.ShapedResidual` as a boundary integrand. -/
def faceNormal (d : Dim) (X : FacePoint d) : Option (Vec ℝ d.n) := divN (crossAt d X.2) (Transform.norm (crossAt d X.2))
def tractionQf {d : Dim} (f : Vec ℝ d.n → Vec ℝ d.n → ℝ → Vec ℝ d.n) (t : ℝ) (y : FaceArg d d.n) : Option (Vec ℝ d.n) :=
  (faceNormal d y.1).map fun n => smulV (f y.1.1 n t) (-1)
def pressureQf {d : Dim} (on : Bool) (f : Vec ℝ d.n → ℝ → ℝ) (t : ℝ) (y : FaceArg d d.n) : Option (Vec ℝ d.n) :=
  let x := addM y.1.2 (smulM y.2.2 0)
  let x := if on then addM x y.2.2 else x
  (divN (crossAt d x) (Transform.norm (crossAt d y.1.2))).map fun n => smulV n (f y.1.1 t)
def fluxQf {d : Dim} (f : Vec ℝ d.n → Vec ℝ d.n → ℝ → ℝ → ℝ) (t : ℝ) (y : FaceArg d 1) : Option (Vec ℝ 1) :=
  (faceNormal d y.1).map fun n => fun _ => f y.1.1 n t (y.2.1 0)
def loadQf {d : Dim} (on : Bool) (l : Load d) (t : ℝ) (y : FaceArg d d.n) : Option (Vec ℝ d.n) := match l with
  | .traction _ f => tractionQf f t y
  | .pressure _ f => pressureQf on f t y

/-- What dual numbers carry through the integrands of the residual of solids: the stress functor, a body force and a load. -/
structure SolidSlopes (d : Dim) where
  stress : ℕ → Arg d d.n → Arg d d.n → Field d d.n
  force : BodyForce d → ℝ → Arg d d.n → Arg d d.n → Field d d.n
  load : Load d → ℝ → FaceArg d d.n → FaceArg d d.n → Vec ℝ d.n

/-- `dual / dual` (dual.hpp:142-147) entry by entry: a dual vector divided by a dual number. -/
def quotD {n : ℕ} (v dv : Vec ℝ n) (a da : ℝ) : Vec ℝ n := fun i => dv i / a - v i * da / (a * a)

/-- What dual numbers carry through the functions of the user, given position (and normal) and direction. -/
structure UserSlopes (d : Dim) where
  body : BodyForce d → ℝ → Vec ℝ d.n → Vec ℝ d.n → Vec ℝ d.n
  traction : (Vec ℝ d.n → Vec ℝ d.n → ℝ → Vec ℝ d.n) → ℝ → Vec ℝ d.n × Vec ℝ d.n → Vec ℝ d.n × Vec ℝ d.n → Vec ℝ d.n
  pressure : (Vec ℝ d.n → ℝ → ℝ) → ℝ → Vec ℝ d.n → Vec ℝ d.n → ℝ

/-- Through a traction (solid_mechanics.hpp:1031-1034) and a pressure (1079-1099). -/
def tractionD {d : Dim} (T : Vec ℝ d.n × Vec ℝ d.n → Vec ℝ d.n × Vec ℝ d.n → Vec ℝ d.n) (y w : FaceArg d d.n) : Vec ℝ d.n :=
  let n := crossAt d y.1.2
  let dn := crossD d y.1.2 w.1.2
  smulV (T (y.1.1, divV n (Transform.norm n)) (w.1.1, quotD n dn (Transform.norm n) (normD n dn))) (-1)
def pressureD {d : Dim} (on : Bool) (f : ℝ) (F : Vec ℝ d.n → ℝ) (y w : FaceArg d d.n) : Vec ℝ d.n :=
  let x := addM y.1.2 (smulM y.2.2 0)
  let x := if on then addM x y.2.2 else x
  let dx := addM w.1.2 (smulM w.2.2 0)
  let dx := if on then addM dx w.2.2 else dx
  let n := crossAt d x
  let dn := crossD d x dx
  let a := Transform.norm (crossAt d y.1.2)
  let da := normD (crossAt d y.1.2) (crossD d y.1.2 w.1.2)
  fun i => quotD n dn a da i * f + divV n a i * F w.1.1
def loadD {d : Dim} (U : UserSlopes d) (on : Bool) (l : Load d) (t : ℝ) (y w : FaceArg d d.n) : Vec ℝ d.n := match l with
  | .traction _ f => tractionD (U.traction f t) y w
  | .pressure _ f => pressureD on (f y.1.1 t) (U.pressure f t y.1.1) y w

/-- Through the integrands of solids: the stress functor (solid_mechanics.hpp:833-852) with the derivative `A` of its flux, body forces (953-962) and loads. -/
def Part.slopes {d : Dim} (B : Part d) (A : Moduli d) (U : UserSlopes d) : SolidSlopes d where
  stress p y w := (fun i => B.density * w.2.2.1 i, fun i m => ∑ j, ∑ n, A p y.2.1.2 i m j n * w.2.1.2 j n)
  force f t y w := (fun i => -1 * U.body f t y.1.1 w.1.1 i, 0)
  load l t := loadD U B.on l t

/-- The residual of a solid as a functional. -/
def Part.form {d : Dim} (B : Part d) (V : Space) (m : ℕ) (numP : Fin V.np × Fin d.n ≃ Fin m) (D : SolidSlopes d) : Form d d.n where
  M := B.M
  V := V
  E := B.E
  EF := B.EF
  nn := B.nn
  conn := B.conn
  connF := B.connF
  N := B.N
  num := B.num
  m := m
  numP := numP
  terms := ⟨B.elements, false, fun p _ => B.stressQf p, fun p _ => D.stress p⟩ ::
    B.forces.map fun f => ⟨f.elements, true, fun _ t => Part.forceQf f t, fun _ t => D.force f t⟩
  faces := B.loads.map fun l => ⟨l.elements, loadQf B.on l, D.load l⟩

/-- The same for heat transfer: material, source, flux. -/
structure HeatSlopes (d : Dim) where
  material : ℕ → Arg d 1 → Arg d 1 → Field d 1
  source : Source d → ℝ → Arg d 1 → Arg d 1 → Field d 1
  flux : Heat.Flux d → ℝ → FaceArg d 1 → FaceArg d 1 → Vec ℝ 1

/-- Through the functions of the user: capacity and flux of the material, sources and fluxes on the boundary. -/
structure HeatUser (d : Dim) where
  capacity : ℕ → Point d → Point d → ℝ
  flux : ℕ → Point d × ℝ × Vec ℝ d.n → Point d × ℝ × Vec ℝ d.n → Vec ℝ d.n
  source : Source d → ℝ → Point d × ℝ × Vec ℝ d.n → Point d × ℝ × Vec ℝ d.n → ℝ
  boundary : Heat.Flux d → ℝ → (Vec ℝ d.n × Vec ℝ d.n) × ℝ → (Vec ℝ d.n × Vec ℝ d.n) × ℝ → ℝ

/-- Through the integrands of heat transfer (heat_transfer.hpp:393-402, 495-505, 546-549). -/
def Conductor.slopes {d : Dim} (C : Conductor d) (U : HeatUser d) : HeatSlopes d where
  material k y w :=
    (fun _ => U.capacity k y.1 w.1 * y.2.2.1 0 + (C.material k y.1).capacity * w.2.2.1 0,
     fun _ i => -1 * U.flux k (y.1, y.2.1.1 0, y.2.1.2 0) (w.1, w.2.1.1 0, w.2.1.2 0) i)
  source s t y w := (fun _ => -1 * U.source s t (y.1, y.2.1.1 0, y.2.1.2 0) (w.1, w.2.1.1 0, w.2.1.2 0), 0)
  flux l t y w :=
    let n := crossAt d y.1.2
    let dn := crossD d y.1.2 w.1.2
    fun _ => U.boundary l t ((y.1.1, divV n (Transform.norm n)), y.2.1 0) ((w.1.1, quotD n dn (Transform.norm n) (normD n dn)), w.2.1 0)

def Conductor.form {d : Dim} (C : Conductor d) (V : Space) (m : ℕ) (numP : Fin V.np × Fin d.n ≃ Fin m) (D : HeatSlopes d) : Form d 1 where
  M := C.M
  V := V
  E := C.E
  EF := C.EF
  nn := C.nn
  conn := C.conn
  connF := C.connF
  N := C.nn
  num := Equiv.prodUnique (Fin C.nn) (Fin 1)
  m := m
  numP := numP
  terms := ⟨C.elements, false, fun p _ => C.materialQf p, fun p _ => D.material p⟩ ::
    C.sources.map fun s => ⟨s.elements, true, fun _ t => Conductor.sourceQf s t, fun _ t => D.source s t⟩
  faces := C.fluxes.map fun l => ⟨l.elements, fluxQf l.f, D.flux l⟩

end Serac.Shaped
