import Mathlib.Data.Real.Basic
import Mathlib.Algebra.BigOperators.Group.List.Basic
/-!
# The glue to PETSc's solvers

`/repo/src/serac/numerics/petsc_solvers.cpp` and `petsc_solvers.hpp`.  PETSc itself is outside of the model.  What is assumed about it: `SNESLineSearchPreCheck` calls
the callback with `changed` false; `KSPSetOperators` hands the matrix to the preconditioner of the `KSP`, and `KSPGetOperators`, `PCGetOperators` return what was set
last; the callbacks set with `KSPSetPreSolve` and `PCSetPreSolve` run before every solve; `SNESSetForceIteration` makes a solve take at least one iteration.
-/

noncomputable section
namespace Serac.Petsc

/-! ## Back-off on infinities -/

/-- A floating point number as far as `PetscIsInfOrNanScalar` looks at it: a number, or `none` for an infinity or a nan.  No overflow. -/
abbrev Scalar := Option ℝ

/-- An infinity times a number is an infinity or a nan, also times zero; likewise for sums. -/
def Scalar.mul (a : Scalar) (y : ℝ) : Scalar := a.map (· * y)
def Scalar.add : Scalar → Scalar → Scalar
  | some a, some b => some (a + b)
  | _, _ => none

/-- `VecDot` over ranks that each own a list of entries: sums on each rank, then the sum over the ranks. -/
def dot {n : ℕ} (ranks : List (List (Fin n))) (F : Fin n → Scalar) (Y : Fin n → ℝ) : Scalar :=
  (ranks.map fun r => (r.map fun i => (F i).mul (Y i)).foldr Scalar.add (some 0)).foldr Scalar.add (some 0)

/-- What the callback gets from the `SNESLineSearch`: the function, a projection onto bounds if the problem has any, step length, smallest step length and the number of
failures allowed. -/
structure Search (n : ℕ) where
  ranks : List (List (Fin n))
  func : (Fin n → ℝ) → Fin n → Scalar
  project : Option ((Fin n → ℝ) → Fin n → ℝ)
  lambda : ℝ
  minLambda : ℝ
  maxFailures : ℤ

/-- petsc_solvers.cpp:817-822. -/
def Search.trial {n : ℕ} (L : Search n) (X Y : Fin n → ℝ) : Fin n → ℝ :=
  let W := fun i => X i + -L.lambda * Y i
  match L.project with
  | some p => p W
  | none => W
def Search.check {n : ℕ} (L : Search n) (X Y : Fin n → ℝ) : Scalar := dot L.ranks (L.func (L.trial X Y)) Y

/-- The loop 816-854; the number of turns left instead of `num_failures`. -/
def Search.loop {n : ℕ} (L : Search n) (X : Fin n → ℝ) : ℕ → ℝ → (Fin n → ℝ) → Bool → (Fin n → ℝ) × Bool
  | 0, _, Y, changed => (Y, changed)
  | k + 1, lambda, Y, changed => match L.check X Y with
    | some _ => (Y, changed)
    | none => if lambda * (1 / 2) < L.minLambda then (Y, changed) else L.loop X k (lambda * (1 / 2)) (fun i => Y i * (1 / 2)) true

/-- `linesearchPreCheckBackoffOnNan`, petsc_solvers.cpp:795-857: the step and the flag. -/
def Search.preCheck {n : ℕ} (L : Search n) (X Y : Fin n → ℝ) : (Fin n → ℝ) × Bool := L.loop X L.maxFailures.toNat L.lambda Y false

/-! ## Matrices and preconditioners -/

inductive Kind
  | aij | baij | sbaij | hypre | nest | shell
  deriving DecidableEq

/-- The name of the type contains "aij" (petsc_solvers.cpp:211). -/
def Kind.hasAij : Kind → Bool
  | .aij | .baij | .sbaij => true
  | _ => false

variable {V : Type}

/-- The operator of a `PC`: a matrix of the user, or a copy in the format AIJ with its own values. -/
inductive Ref (V : Type)
  | user (i : ℕ)
  | copy (v : V)

/-- A `PetscPCSolver` and the values of the user's matrices.  `cached` is `converted_matrix_`. -/
structure PC (V : Type) where
  vals : ℕ → V
  op : Option (Ref V)
  cached : Option V
  checked : Bool

/-- What is done with it: the user fills a matrix, `PCSetOperators`, a solve. -/
inductive PCOp (V : Type)
  | assemble (i : ℕ) (v : V)
  | set (i : ℕ)
  | presolve

def Ref.kind (kind : ℕ → Kind) : Ref V → Kind
  | .user i => kind i
  | .copy _ => .aij
def Ref.values (vals : ℕ → V) : Ref V → V
  | .user i => vals i
  | .copy v => v

/-- `convertPCPreSolve`, petsc_solvers.cpp:195-222.  Without an operator PETSc reports an error. -/
def PC.presolve (kind : ℕ → Kind) (s : PC V) : Option (PC V) := match s.op with
  | none => none
  | some r =>
    if !s.checked || s.cached.isSome then
      if (r.kind kind).hasAij then some s
      else some { s with cached := some (r.values s.vals), op := some (.copy (r.values s.vals)), checked := true }
    else some { s with checked := true }

def PC.step (kind : ℕ → Kind) (s : PC V) : PCOp V → Option (PC V)
  | .assemble i v => some { s with vals := fun j => if j = i then v else s.vals j }
  | .set i => some { s with op := some (.user i) }
  | .presolve => s.presolve kind

/-- Run a program; the result also lists, for each solve, the kind and the values of the matrix that the preconditioner is built from. -/
def PC.run (kind : ℕ → Kind) : List (PCOp V) → PC V → Option (PC V × List (Kind × V))
  | [], s => some (s, [])
  | o :: os, s => match s.step kind o with
    | none => none
    | some s' => match PC.run kind os s' with
      | none => none
      | some (s'', l) => match o, s'.op with
        | .presolve, some r => some (s'', (r.kind kind, r.values s'.vals) :: l)
        | _, _ => some (s'', l)

/-- A new `PetscPCSolver` (petsc_solvers.hpp:26-29). -/
def PC.init (vals : ℕ → V) : PC V := ⟨vals, none, none, false⟩

/-- A `PetscKSPSolver` whose preconditioner is not one of PETSc.  `wrapped` is the hypre matrix that `wrapped_matrix_` refers to, `prec` the values the preconditioner
was last set up with. -/
structure KSP (V : Type) where
  vals : ℕ → V
  A : Option ℕ
  wrapped : Option ℕ
  needs : Bool
  checked : Bool
  prec : Option V

inductive KSPOp (V : Type)
  | assemble (i : ℕ) (v : V)
  | setOperators (i : ℕ)
  | setOperator (i : ℕ)
  | presolve

/-- petsc_solvers.cpp:608-616: the wrapper is built anew if it refers to another matrix. -/
def KSP.rewrap (s : KSP V) (i : ℕ) : Option ℕ := if s.wrapped ≠ some i then some i else s.wrapped

/-- `convertKSPPreSolve`, petsc_solvers.cpp:568-625, for a preconditioner that is not a `PetscPCSolver`. -/
def KSP.presolve (kind : ℕ → Kind) (s : KSP V) : Option (KSP V) := match s.A with
  | none => none
  | some i =>
    if !s.checked || s.needs then
      if kind i ≠ .hypre then some { s with checked := true }
      else some { s with wrapped := s.rewrap i, prec := (s.rewrap i).map s.vals, needs := true, checked := true }
    else some { s with checked := true }

/-- `KSPSetOperators` by a `SNES`, `PetscKSPSolver::SetOperator` (petsc_solvers.cpp:681-774: operator of the `KSP` and of the preconditioner). -/
def KSP.step (kind : ℕ → Kind) (s : KSP V) : KSPOp V → Option (KSP V)
  | .assemble i v => some { s with vals := fun j => if j = i then v else s.vals j }
  | .setOperators i => some { s with A := some i }
  | .setOperator i => some { s with A := some i, prec := some (s.vals i) }
  | .presolve => s.presolve kind

def KSP.run (kind : ℕ → Kind) : List (KSPOp V) → KSP V → Option (KSP V)
  | [], s => some s
  | o :: os, s => match s.step kind o with
    | none => none
    | some s' => KSP.run kind os s'

/-- A new `PetscKSPSolver` (petsc_solvers.hpp:239-249). -/
def KSP.init (vals : ℕ → V) : KSP V := ⟨vals, none, none, false, false, none⟩

/-! ## The format of the operator -/

/-- What `PetscKSPSolver::SetOperator` is called with. -/
inductive Given
  | petsc (k : Kind) | hypre | block | other
  deriving DecidableEq

/-- petsc_solvers.cpp:699-719, with `PETSC_HAVE_HYPRE`. -/
def format (wrap petscPC : Bool) : Given → Kind
  | .petsc k => k
  | .hypre => if !petscPC then (if wrap then .shell else .hypre) else if wrap then .shell else .aij
  | .block => .nest
  | .other => if wrap then .shell else .aij

/-- The three constructors of `PetscKSPSolver` and the argument `wrap_op` of two of them (petsc_solvers.cpp:627-667). -/
inductive Constructor
  | fromComm (wrapOp : Bool) | fromPetsc | fromHypre (wrapOp : Bool)

/-- `wrap_` after construction; the first constructor leaves the initializer of petsc_solvers.hpp:239. -/
def Constructor.wrap : Constructor → Bool
  | .fromComm _ => false
  | .fromPetsc => false
  | .fromHypre w => w

/-- The iterations that `PetscNewtonSolver` makes PETSc take at least (petsc_solvers.cpp:890-892). -/
def forced (minIterations : ℤ) : ℤ := if minIterations > 0 then 1 else 0

end Serac.Petsc
