import Verif.Model.UserFunctional
import Verif.Model.Assemble
/-!
# Residual and gradient matrix of a `Functional` on a mesh

`/repo/src/serac/numerics/functional/functional.hpp` 447-498 (`operator()`), 567-660 (`assemble`); `integral.hpp` 65-82 (`Mult`), 113-124 (`ComputeElementGradients`);
`domain_integral_kernels.hpp` 327-361 (`element_gradient_kernel`).

The parts are those of other models: restrictions (`Verif.Model.Restriction`), kernels made of the user's functions (`Verif.Model.UserFunctional`), assembly
(`Verif.Model.Assemble`).  Material states are not updated.
-/

noncomputable section
namespace Serac.UserAsm
open Serac.Kernels Serac.UserFn Serac.Assemble

/-- An integral: kind of domain, positions of its arguments among those of the `Functional`, a kernel for each geometry of the domain. -/
structure UserIntegral (Tm Q : Type) where
  boundary : Bool
  active : List ℕ
  kernels : ℕ → Option (Kernel Tm Q active.length)

section
variable {Tm Q : Type}

/-- Geometries with a kernel. -/
def UserIntegral.geoms (I : UserIntegral Tm Q) : List ℕ := (List.range numGeometries).filter fun g => (I.kernels g).isSome

/-- What the kernels of geometry `g` see of the gathered vectors: `input_E[i].GetBlock(geometry)`. -/
def UserIntegral.view (trial : ℕ → Space) (I : UserIntegral Tm Q) (Es : List (ℕ → ℝ)) (g : ℕ) : Fin I.active.length → ℕ → ℝ := fun a p =>
  Es.getD a.1 (fun _ => 0) (off ((trial (I.active.getD a.1 0)).get I.boundary) g + p)

/-- `Mult`: every kernel adds to its own block of the zeroed output. -/
def UserIntegral.vector (test : Space) (trial : ℕ → Space) (I : UserIntegral Tm Q) (w : Option (Fin I.active.length)) (t : Tm) (q : Q) (Es : List (ℕ → ℝ)) : ℕ → ℝ := fun p =>
  (I.geoms.map fun g =>
    if off (test.get I.boundary) g ≤ p ∧ p < off (test.get I.boundary) g + (test.get I.boundary).blockSize g then
      match I.kernels g with
      | none => 0
      | some k => k.run w t q (I.view trial Es g) (fun _ => 0) (p - off (test.get I.boundary) g)
    else 0).sum

/-- Gathering the arguments. -/
def UserIntegral.gather (trial : ℕ → Space) (xs : ℕ → Vec ℝ) (I : UserIntegral Tm Q) : Option (List (ℕ → ℝ)) :=
  I.active.mapM fun i => ((trial i).get I.boundary).gather (xs i) (fun _ => 0)

/-- Body of the loop of `operator()`. -/
def residualStep (test : Space) (trial : ℕ → Space) (t : Tm) (q : Q) (xs : ℕ → Vec ℝ) (L : Vec ℝ) (I : UserIntegral Tm Q) : Option (Vec ℝ) := do
  let Es ← I.gather trial xs
  (test.get I.boundary).scatterAdd (I.vector test trial none t q Es) L

/-- `operator()` between local vectors. -/
def residual (lsize : ℕ) (test : Space) (trial : ℕ → Space) (Is : List (UserIntegral Tm Q)) (t : Tm) (q : Q) (xs : ℕ → Vec ℝ) : Option (Vec ℝ) :=
  Is.foldlM (residualStep test trial t q xs) ⟨lsize, fun _ => 0⟩

/-- The element matrices with respect to the argument at position `i` of the integral, from the derivatives an evaluation has stored. -/
def UserIntegral.matrices (trial : ℕ → Space) (I : UserIntegral Tm Q) (i : ℕ) (t : Tm) (q : Q) (Es : List (ℕ → ℝ)) (g e b j : ℕ) : ℝ :=
  match I.kernels g with
  | none => 0
  | some k => if h : i < I.active.length then
      gradientKernel k.test (k.trial ⟨i, h⟩) k.c (k.m ⟨i, h⟩) (k.shape ⟨i, h⟩) (k.store ⟨i, h⟩ t q (I.view trial Es g) fun _ => AutoDiff.noDerivs) k.elements (fun _ => 0)
        ((e * (k.m ⟨i, h⟩ * (k.trial ⟨i, h⟩).ndof) + b) * (k.c * k.test.ndof) + j)
    else 0

/-- What the integral brings to `assemble` after an evaluation at `xs` with derivatives by argument `w`. -/
def UserIntegral.gradient (trial : ℕ → Space) (w : ℕ) (t : Tm) (q : Q) (xs : ℕ → Vec ℝ) (I : UserIntegral Tm Q) : Option (Assemble.Integral ℝ) :=
  (I.gather trial xs).map fun Es =>
    ⟨I.boundary, decide (w ∈ I.active), I.geoms, I.matrices trial (I.active.idxOf w) t q Es⟩

/-- Evaluation with derivatives by `w`, then `assemble`. -/
def gradient (sgn : ℤ → ℝ) (lsize : ℕ) (test : Space) (trial : ℕ → Space) (Is : List (UserIntegral Tm Q)) (w : ℕ) (t : Tm) (q : Q) (xs : ℕ → Vec ℝ) :
    Option (Csr.Tables × Vec ℝ) := do
  let Js ← Is.mapM (UserIntegral.gradient trial w t q xs)
  Assemble.assemble sgn lsize test (trial w) Js

/-! ### Several processors -/

/-- What one processor has: restrictions, sizes of its local vectors, integrals, material state, rows of `P_test_` and of `P_trial_` (mfem). -/
structure Proc (Tm Q : Type) where
  test : Space
  trial : ℕ → Space
  lsize : ℕ
  sizes : ℕ → ℕ
  integrals : List (UserIntegral Tm Q)
  q : Q
  R : ℕ → ℕ → ℝ
  P : ℕ → ℕ → ℕ → ℝ

/-- `P_trial_[i]->Mult(x, input_L_[i])`; `N i` true dofs in all. -/
def Proc.prolong (p : Proc Tm Q) (N : ℕ → ℕ) (i : ℕ) (x : ℕ → ℝ) : Vec ℝ := ⟨p.sizes i, fun r => if r < p.sizes i then ∑ c ∈ Finset.range (N i), p.P i r c * x c else 0⟩

/-- `operator()` on true vectors; `P_test_->MultTranspose` adds what all processors have. -/
def residualT (N : ℕ → ℕ) (ps : List (Proc Tm Q)) (t : Tm) (xs : ℕ → ℕ → ℝ) : Option (ℕ → ℝ) := do
  let Ls ← ps.mapM fun p => (residual p.lsize p.test p.trial p.integrals t p.q fun i => p.prolong N i (xs i)).map fun L => (p, L)
  return fun i => (Ls.map fun l => ∑ r ∈ Finset.range l.2.size, l.1.R r i * l.2.val r).sum

/-- The entry of the local sparse matrix in row `r` and column `s`. -/
def csrEntry (t : Csr.Tables) (vals : ℕ → ℝ) (r s : ℕ) : ℝ :=
  ((List.range' (t.rowPtr.val r) (t.rowPtr.val (r + 1) - t.rowPtr.val r)).map fun k => if t.colInd.getD k 0 = s then vals k else 0).sum

/-- `assemble` on all processors: `mfem::RAP(R, A, P)`, which is `Rᵀ A P` with the local matrices as diagonal blocks of `A`. -/
def matrixT (sgn : ℤ → ℝ) (N : ℕ → ℕ) (ps : List (Proc Tm Q)) (w : ℕ) (t : Tm) (xs : ℕ → ℕ → ℝ) : Option (ℕ → ℕ → ℝ) := do
  let As ← ps.mapM fun p => (gradient sgn p.lsize p.test p.trial p.integrals w t p.q fun i => p.prolong N i (xs i)).map fun A => (p, A)
  return fun i c => (As.map fun a => ∑ r ∈ Finset.range a.1.lsize, ∑ s ∈ Finset.range (a.1.sizes w), a.1.R r i * csrEntry a.2.1 a.2.2.val r s * a.1.P w s c).sum

end
end Serac.UserAsm
