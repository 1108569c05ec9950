import Verif.Model.AutoDiff
import Verif.Model.FunctionalCalls
/-!
# Integrals of a `Functional` written by the user

`/repo/src/serac/numerics/functional/domain_integral_kernels.hpp` 153-213 and `boundary_integral_kernels.hpp` 163-210 (`evaluation_kernel_impl` with all its arguments, one element
after the other), 273-300 and 254-282 (`action_of_gradient_kernel`); `integral.hpp` 65-104 (`Mult`, `GradientMult`: one kernel for each geometry, each writing its own block),
175-330 (`generate_kernels`).

The integrals of `Verif.Model.FunctionalCalls` have kernels as data; here they are built from the user's function (`Verif.Model.AutoDiff`) and the element kernels
(`Verif.Model.ElementKernels`).  An element vector is a block of `N` numbers for each of `G` geometries; positions beyond `N` are read as zero (the code would read foreign memory).
What happens to the material state is a parameter.
-/

noncomputable section
namespace Serac.UserFn
open Serac.Kernels Serac.AutoDiff Serac.Transform Serac.FnCalls

/-- A kernel for one geometry: `A` arguments, argument `a` with `m a` components on `trial a`. -/
structure Kernel (Tm Q : Type) (A : ℕ) where
  m : Fin A → ℕ
  c : ℕ
  test : Elem ℝ
  trial : Fin A → Elem ℝ
  elements : List ℕ
  zs : Bool
  zf : Bool
  shape : Fin A → Shape
  /-- source and flux at a point for the given `differentiation_index` -/
  point : Option (Fin A) → Tm → Q → ℕ → (Fin A → Field) → Out

section
variable {Tm Q : Type} {A : ℕ}

/-- `interpolate(get<indices>(u)[elements[e]], rule)` for all arguments, at point `P`. -/
def Kernel.fields (k : Kernel Tm Q A) (Us : Fin A → ℕ → ℝ) (e P : ℕ) : Fin A → Field := fun a =>
  ((interpolate (k.trial a) fun p => Us a (e * (k.m a * (k.trial a).ndof) + p)).value P, (interpolate (k.trial a) fun p => Us a (e * (k.m a * (k.trial a).ndof) + p)).grad P)

/-- `evaluation_kernel_impl`: the residual. -/
def Kernel.run (k : Kernel Tm Q A) (w : Option (Fin A)) (t : Tm) (q : Q) (Us : Fin A → ℕ → ℝ) (r : ℕ → ℝ) : ℕ → ℝ :=
  k.elements.zipIdx.foldl (fun r ee =>
    let out := fun P => (k.point w t q (ee.2 * k.test.npts + P) (k.fields Us ee.1 P)).values
    integrateInto k.test k.c k.c (k.c * k.test.dim) (nonzero k.zs fun P i => (out P).1 i) (nonzero k.zf fun P p => (out P).2 (p / k.test.dim) (p % k.test.dim)) ee.1 1 r) r

/-- `evaluation_kernel_impl`: the derivatives by argument `a`. -/
def Kernel.store (k : Kernel Tm Q A) (a : Fin A) (t : Tm) (q : Q) (Us : Fin A → ℕ → ℝ) (old : Buffer ℝ) : Buffer ℝ :=
  k.elements.zipIdx.foldl (fun D ee =>
    loop k.test.npts (fun D P p => if p = ee.2 * k.test.npts + P then (k.point (some a) t q p (k.fields Us ee.1 P)).derivs else D p) D) old

/-- `action_of_gradient_kernel`. -/
def Kernel.act (k : Kernel Tm Q A) (a : Fin A) (D : Buffer ℝ) (dU dR : ℕ → ℝ) : ℕ → ℝ := actionKernel k.test (k.trial a) k.c (k.m a) (k.shape a) D k.elements dU dR

def noOut : Out := ⟨fun _ => .dbl 0, fun _ _ => .dbl 0⟩

/-- The kernel of `AddDomainIntegral` with the user's function `f`; its data (time, position, history, constants) are `data`. -/
def domainKernel {κ : Type} {m : Fin A → ℕ} {c : ℕ} (d : Dim) (f : QFun A m d.n κ c) (jac : ℕ → Tensor.Mat ℝ d.n d.n) (data : Tm → Q → ℕ → κ → ℝ) (test : Elem ℝ)
    (trial : Fin A → Elem ℝ) (elements : List ℕ) : Kernel Tm Q A where
  m := m
  c := c
  test := test
  trial := trial
  elements := elements
  zs := f.source.isNone
  zf := f.flux.isNone
  shape a := f.shape (some a)
  point w t q p u := (evalPoint d (jac p) w f (data t q p) u).getD noOut

/-- The kernel of `AddBoundaryIntegral`. -/
def faceKernel {κ : Type} {m : Fin A → ℕ} {c : ℕ} (d : Dim) (f : Fin c → Expr (Input A m (faceDim d) κ)) (jac : ℕ → Fin (faceDim d) → Fin d.n → ℝ)
    (data : Tm → Q → ℕ → κ → ℝ) (test : Elem ℝ) (trial : Fin A → Elem ℝ) (elements : List ℕ) : Kernel Tm Q A where
  m := m
  c := c
  test := test
  trial := trial
  elements := elements
  zs := false
  zf := true
  shape a := faceShape (some a) f
  point w t q p u := ⟨fun i => if h : i < c then Num.ap2 .mul ((f ⟨i, h⟩).run (faceInputs w (data t q p) u)) (.dbl (area d (jac p))) else .dbl 0, fun _ _ => .dbl 0⟩

end

/-! ### Integrals -/

/-- Element vectors. -/
abbrev EVec (G N : ℕ) := Fin G → Fin N → ℝ

/-- Reading a block. -/
def pad {N : ℕ} (x : Fin N → ℝ) : ℕ → ℝ := fun p => if h : p < N then x ⟨p, h⟩ else 0

/-- What is stored: one buffer for each geometry. -/
abbrev Store (G : ℕ) := Fin G → Buffer ℝ

section
variable {Tm Q : Type} {G N : ℕ}

/-- The arguments' blocks for geometry `g`. -/
def blocks (A : ℕ) (g : Fin G) (xs : List (EVec G N)) : Fin A → ℕ → ℝ := fun a => pad (xs.getD a.1 0 g)

/-- One kernel for each geometry of the domain, run one after the other on their own blocks; `next` is what the kernels make of the material state if asked to store it. -/
def toIntegral (type : DType) (active : List ℕ) (kernels : Fin G → Option (Kernel Tm Q active.length)) (next : Tm → List (EVec G N) → Q → Q) :
    Integral Tm (EVec G N) Q (Store G) where
  type := type
  active := active
  value t xs q := fun g => match kernels g with
    | none => 0
    | some k => fun p => k.run none t q (blocks _ g xs) (fun _ => 0) p
  next t xs q b := if b then next t xs q else q
  valueAD i t xs q := fun g => match kernels g with
    | none => 0
    | some k => fun p => k.run (if h : i < active.length then some ⟨i, h⟩ else none) t q (blocks _ g xs) (fun _ => 0) p
  nextAD _ t xs q b := if b then next t xs q else q
  derivative i t xs q := fun g => match kernels g with
    | none => fun _ => noDerivs
    | some k => if h : i < active.length then k.store ⟨i, h⟩ t q (blocks _ g xs) (fun _ => noDerivs) else fun _ => noDerivs
  jvp i D dx := fun g => match kernels g with
    | none => 0
    | some k => if h : i < active.length then fun p => k.act ⟨i, h⟩ (D g) (pad (dx g)) (fun _ => 0) p else 0

end
end Serac.UserFn
