import Verif.Model.Dual
import Verif.Model.Transforms
import Verif.Model.ElementKernels
/-!
# What is evaluated and stored at one quadrature point

`/repo/src/serac/numerics/functional/domain_integral_kernels.hpp` 153-213 (`evaluation_kernel_impl`, one point), 97-103 (`get_derivative_type`), 105-151
(`batch_apply_qf`); `tuple_tensor_dual_functions.hpp` 100-330 (`one_hot_t`, `make_dual_helper`, `make_dual`, `promote_each_to_dual_when`, `get_value`,
`get_gradient`); `finite_element.hpp` 247-320 (`parent_to_physical`, `physical_to_parent`, H1 and L2); `tensor.hpp` 708-720 (`dot`), 1775-1783
(`get_gradient(double)` is `zero`).

Simplifications.  All arguments and the test space are H1 or L2.  A scalar value is a value with one component.  The user's function is a family of expressions, one for
each component of source and flux; an output of type `zero` is `none`.  Everything that is not a trial argument (time, position, Jacobian, history, constants of the material)
is `data`.  The gradient type `tuple<T0, T1>` of a dual is a pair of arrays, in which a part of type `zero` is a part filled with zeros; which parts have type `zero` is
computed separately by `kind`.  Overloads that C++ rejects because two gradient types differ (`max`, `pow`, ... of duals) are accepted here.
-/

noncomputable section
namespace Serac.AutoDiff
open Serac.Num Serac.Kernels Serac.Transform Serac.Tensor

/-- What the user's function can read: its data, and value and gradient of its trial arguments (argument `a` has `m a` components). -/
inductive Input (A : ℕ) (m : Fin A → ℕ) (n : ℕ) (κ : Type)
  | data (k : κ)
  | val (a : Fin A) (j : Fin (m a))
  | der (a : Fin A) (j : Fin (m a)) (k : Fin n)

/-- Gradient type: derivatives by the value and by the gradient of the chosen argument. -/
abbrev Grad := (ℕ → ℝ) × (ℕ → ℕ → ℝ)

/-- Value and gradient of an argument at the point. -/
abbrev Field := (ℕ → ℝ) × (ℕ → ℕ → ℝ)

/-- `get<0>(arg_dual(j).gradient)(j) = 1.0` (tuple_tensor_dual_functions.hpp:157-168 with `i = 0`). -/
def hotValue (j : ℕ) : Grad := (fun j' => if j' = j then 1 else 0, fun _ _ => 0)
/-- `get<1>(arg_dual(j, k).gradient)(j, k) = 1.0` (157-168 with `i = 1`). -/
def hotGrad (j k : ℕ) : Grad := (fun _ => 0, fun j' k' => if j' = j ∧ k' = k then 1 else 0)

/-- `promote_to_dual_when<dualify>` for one entry. -/
def promote (dualify : Bool) (x : ℝ) (g : Grad) : Num Grad := if dualify then .dual ⟨x, g⟩ else .dbl x

/-- The value-initialised entry of a tensor of duals or of numbers. -/
def zeroOf (dualify : Bool) : Num Grad := if dualify then .dual ⟨0, 0⟩ else .dbl 0

/-- `dot` of a tensor (of numbers or duals) with a matrix of numbers, entry by entry. -/
def dotNum {n : ℕ} (dualify : Bool) (A : Fin n → Num Grad) (B : Mat ℝ n n) (l : Fin n) : Num Grad :=
  Fin.foldl n (fun s k => ap2 .add s (ap2 .mul (A k) (.dbl (B k l)))) (zeroOf dualify)

section
variable {A : ℕ} {m : Fin A → ℕ} {n : ℕ} {κ : Type}

/-- `indices == differentiation_index`; `none` is `NO_DIFFERENTIATION`. -/
def chosen (w : Option (Fin A)) (a : Fin A) : Bool := decide (w = some a)

/-- `qf_inputs` after `promote_each_to_dual_when` and `parent_to_physical`, with `Ji = inv(J)`. -/
def inputs (w : Option (Fin A)) (Ji : Mat ℝ n n) (data : κ → ℝ) (u : Fin A → Field) : Input A m n κ → Num Grad
  | .data k => .dbl (data k)
  | .val a j => promote (chosen w a) ((u a).1 j) (hotValue j)
  | .der a j l => dotNum (chosen w a) (fun k => promote (chosen w a) ((u a).2 j k) (hotGrad j k)) Ji l

/-! ### Types -/

/-- Type of a number: `none` for `double`, else which parts of the gradient tuple are not `zero`. -/
abbrev Kind := Option (Bool × Bool)

/-- Type of a sum, product, ... -/
def join : Kind → Kind → Kind
  | none, b => b
  | a, none => a
  | some a, some b => some (a.1 || b.1, a.2 || b.2)

def kindOf (w : Option (Fin A)) : Input A m n κ → Kind
  | .data _ => none
  | .val a _ => if chosen w a then some (true, false) else none
  | .der a _ _ => if chosen w a then some (false, true) else none

def kind (w : Option (Fin A)) : Expr (Input A m n κ) → Kind
  | .const _ => none
  | .var i => kindOf w i
  | .un _ a => kind w a
  | .bin _ a b => join (kind w a) (kind w b)

/-- Type of the entries of a tensor with the given entries. -/
def joinAll {c : ℕ} (k : Fin c → Kind) : Kind := Fin.foldl c (fun s i => join s (k i)) none

/-- The user's function: `c` components of source and flux. -/
structure QFun (A : ℕ) (m : Fin A → ℕ) (n : ℕ) (κ : Type) (c : ℕ) where
  source : Option (Fin c → Expr (Input A m n κ))
  flux : Option (Fin c → Fin n → Expr (Input A m n κ))

variable {c : ℕ}

def QFun.sourceKind (w : Option (Fin A)) (f : QFun A m n κ c) : Kind := match f.source with
  | none => none
  | some s => joinAll fun i => kind w (s i)

def QFun.fluxKind (w : Option (Fin A)) (f : QFun A m n κ c) : Kind := match f.flux with
  | none => none
  | some s => joinAll fun i => joinAll fun l => kind w (s i l)

def Kind.hasValue : Kind → Bool
  | none => false
  | some p => p.1
def Kind.hasGrad : Kind → Bool
  | none => false
  | some p => p.2

/-- `get_derivative_type`: which blocks are `zero`. -/
def QFun.shape (w : Option (Fin A)) (f : QFun A m n κ c) : Shape :=
  ⟨!(f.sourceKind w).hasValue, !(f.sourceKind w).hasGrad, !(f.fluxKind w).hasValue, !(f.fluxKind w).hasGrad⟩

end

/-! ### One point -/

section
variable {A : ℕ} {m : Fin A → ℕ} {κ : Type} {c : ℕ}

/-- Source and flux at one point, before `get_value` and `get_gradient`. -/
structure Out where
  source : ℕ → Num Grad
  flux : ℕ → ℕ → Num Grad

/-- `get<SOURCE>(qf_output) * dv`. -/
def outSource {n : ℕ} (f : QFun A m n κ c) (x : Input A m n κ → Num Grad) (dv : ℝ) (i : ℕ) : Num Grad := match f.source with
  | none => .dbl 0
  | some s => if h : i < c then ap2 .mul ((s ⟨i, h⟩).run x) (.dbl dv) else .dbl 0

/-- `dot(get<FLUX>(qf_output), inv(J_T)) * dv`. -/
def outFlux {n : ℕ} (f : QFun A m n κ c) (dualify : Bool) (x : Input A m n κ → Num Grad) (JTi : Mat ℝ n n) (dv : ℝ) (i l : ℕ) : Num Grad := match f.flux with
  | none => .dbl 0
  | some s => if h : i < c ∧ l < n then ap2 .mul (dotNum dualify (fun k => (s ⟨i, h.1⟩ k).run x) JTi ⟨l, h.2⟩) (.dbl dv) else .dbl 0

/-- The loop body of `evaluation_kernel_impl` for one point: `jac` is `jacobians(·, ·, k)`.  `none`: division by zero in `inv`. -/
def evalPoint (d : Dim) (jac : Mat ℝ d.n d.n) (w : Option (Fin A)) (f : QFun A m d.n κ c) (data : κ → ℝ) (u : Fin A → Field) : Option Out :=
  let J : Mat ℝ d.n d.n := fun row col => jac col row
  let JT : Mat ℝ d.n d.n := fun row col => jac row col
  let dv := det d JT
  (inv d J).bind fun Ji => (inv d JT).map fun JTi =>
    let x := inputs w Ji data u
    ⟨outSource f x dv, outFlux f (f.fluxKind w).isSome x JTi dv⟩

/-- `get_value(qf_outputs)`. -/
def Out.values (o : Out) : (ℕ → ℝ) × (ℕ → ℕ → ℝ) := (fun i => (o.source i).value, fun i l => (o.flux i l).value)

/-- `get_gradient(qf_outputs[q])`. -/
def Out.derivs (o : Out) : Deriv ℝ :=
  ⟨fun i j => (o.source i).gradient.1 j, fun i j k => (o.source i).gradient.2 j k,
   fun i l j => (o.flux i l).gradient.1 j, fun i l j k => (o.flux i l).gradient.2 j k⟩

def noValues : (ℕ → ℝ) × (ℕ → ℕ → ℝ) := (fun _ => 0, fun _ _ => 0)
def noDerivs : Deriv ℝ := ⟨fun _ _ => 0, fun _ _ _ => 0, fun _ _ _ => 0, fun _ _ _ _ => 0⟩

/-- Everything that belongs to the points of an integral: Jacobians, data and the arguments' values and gradients. -/
structure Points (A : ℕ) (d : Dim) (κ : Type) where
  jac : ℕ → Mat ℝ d.n d.n
  data : ℕ → κ → ℝ
  args : ℕ → Fin A → Field

/-- The point function of the kernels as a function of argument `a`, evaluated with `differentiation_index = w`. -/
def pointFn {d : Dim} (P : Points A d κ) (f : QFun A m d.n κ c) (w : Option (Fin A)) (a : Fin A) : PointFn ℝ := fun p v g =>
  match evalPoint d (P.jac p) w f (P.data p) (Function.update (P.args p) a (v, g)) with
  | none => noValues
  | some o => o.values

/-- What `evaluation_kernel_impl` stores when differentiating with respect to argument `a`. -/
def pointGrad {d : Dim} (P : Points A d κ) (f : QFun A m d.n κ c) (a : Fin A) : ℕ → (ℕ → ℝ) → (ℕ → ℕ → ℝ) → Deriv ℝ := fun p v g =>
  match evalPoint d (P.jac p) (some a) f (P.data p) (Function.update (P.args p) a (v, g)) with
  | none => noDerivs
  | some o => o.derivs

/-! ### Boundary integrals (boundary_integral_kernels.hpp 114-205) -/

@[reducible] def faceDim : Dim → ℕ
  | .two => 1
  | .three => 2

/-- `norm(cross(J_q))` with `J_q(j, k) = jacobians(k, j, i)` (boundary_integral_kernels.hpp:124-132, 148-156). -/
def area : (d : Dim) → (Fin (faceDim d) → Fin d.n → ℝ) → ℝ
  | .two, jac => Transform.norm (crossFace2 fun j => jac 0 j)
  | .three, jac => Transform.norm (crossCols fun j k => jac k j)

/-- `qf_inputs` of the boundary kernel: promoted, not transformed; gradients are with respect to the coordinates of the parent face (183-187). -/
def faceInputs {n : ℕ} (w : Option (Fin A)) (data : κ → ℝ) (u : Fin A → Field) : Input A m n κ → Num Grad
  | .data k => .dbl (data k)
  | .val a j => promote (chosen w a) ((u a).1 j) (hotValue j)
  | .der a j k => promote (chosen w a) ((u a).2 j k) (hotGrad j k)

structure FacePoints (A : ℕ) (d : Dim) (κ : Type) where
  jac : ℕ → Fin (faceDim d) → Fin d.n → ℝ
  data : ℕ → κ → ℝ
  args : ℕ → Fin A → Field

/-- `get<0>(outputs[i]) = qf(...) * scale`; the second entry of the tuple is `zero` (120, 132). -/
def faceOut {d : Dim} (P : FacePoints A d κ) (f : Fin c → Expr (Input A m (faceDim d) κ)) (w : Option (Fin A)) (a : Fin A) (p : ℕ) (v : ℕ → ℝ) (g : ℕ → ℕ → ℝ) : Out :=
  ⟨fun i => if h : i < c then ap2 .mul ((f ⟨i, h⟩).run (faceInputs w (P.data p) (Function.update (P.args p) a (v, g)))) (.dbl (area d (P.jac p))) else .dbl 0,
   fun _ _ => .dbl 0⟩

def facePointFn {d : Dim} (P : FacePoints A d κ) (f : Fin c → Expr (Input A m (faceDim d) κ)) (w : Option (Fin A)) (a : Fin A) : PointFn ℝ := fun p v g =>
  (faceOut P f w a p v g).values

/-- `qf_derivatives[e * qpts_per_elem + q] = get_gradient(qf_outputs[q])` (193-197). -/
def facePointGrad {d : Dim} (P : FacePoints A d κ) (f : Fin c → Expr (Input A m (faceDim d) κ)) (a : Fin A) : ℕ → (ℕ → ℝ) → (ℕ → ℕ → ℝ) → Deriv ℝ := fun p v g =>
  (faceOut P f (some a) a p v g).derivs

/-- `get_derivative_type` (104-110): the second entry is `zero`. -/
def faceShape {n : ℕ} (w : Option (Fin A)) (f : Fin c → Expr (Input A m n κ)) : Shape :=
  let k := joinAll fun i => kind w (f i)
  ⟨!k.hasValue, !k.hasGrad, true, true⟩

end
end Serac.AutoDiff
