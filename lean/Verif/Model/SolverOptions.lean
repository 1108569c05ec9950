import Mathlib.Data.Rat.Defs
/-!
# Solver options

`/repo/src/serac/numerics/equation_solver.cpp` 687-706, 820-1052 and 1054-1188, `numerics/solver_config.hpp` 95-400, `numerics/petsc_solvers.cpp` 544-564.

Strings are Lean strings, tolerances are elements of an arbitrary type `T` (they are only copied).  The objects of mfem, hypre, KINSOL, PETSc, SuperLU and
AMGX that are created are represented by their names and the settings serac gives them.

`SLIC_ERROR_ROOT` is assumed to end the program (the default of serac's logger): outcome `refused`.  An exception that serac does not catch is `refused`
too.  Forming `*preconditioner` from an empty `unique_ptr` is `undefined`.
-/

namespace Serac.SolverOptions

inductive Res (α : Type) where
  | ok (a : α)
  | refused
  | undefined

def Res.bind {α β : Type} : Res α → (α → Res β) → Res β
  | .ok a, f => f a
  | .refused, _ => .refused
  | .undefined, _ => .undefined

/-- Build configuration: `SERAC_USE_SUNDIALS`, `SERAC_USE_PETSC`, `MFEM_USE_AMGX`, `MFEM_USE_STRUMPACK`. -/
structure Config where
  sundials : Bool
  petsc : Bool
  amgx : Bool
  strumpack : Bool

/-- solver_config.hpp 102-110. -/
inductive Linear where
  | CG | GMRES | SuperLU | Strumpack | PetscCG | PetscGMRES
  deriving DecidableEq

/-- solver_config.hpp 143-157. -/
inductive Nonlinear where
  | Newton | LBFGS | NewtonLineSearch | TrustRegion | KINFullStep | KINBacktrackingLineSearch | KINPicard
  | PetscNewton | PetscNewtonBacktracking | PetscNewtonCriticalPoint | PetscTrustRegion
  deriving DecidableEq

/-- solver_config.hpp 237-258. -/
inductive PetscPC where
  | JACOBI | JACOBI_L1 | JACOBI_ROWSUM | JACOBI_ROWMAX | PBJACOBI | BJACOBI | LU | ILU | CHOLESKY | SVD | ASM | GASM | GAMG | HMG | NONE
  deriving DecidableEq

/-- solver_config.hpp 305-316. -/
inductive Prec where
  | HypreJacobi | HypreL1Jacobi | HypreGaussSeidel | HypreAMG | HypreILU | AMGX | Petsc | None
  deriving DecidableEq

/-- `LinearSolverOptions`, solver_config.hpp 343-370 (without `amgx_options`, which the input file cannot set). -/
structure LinearOptions (T : Type) where
  solver : Linear
  prec : Prec
  petscPrec : PetscPC
  relTol : T
  absTol : T
  maxIter : Int
  printLevel : Int
  precPrintLevel : Int

/-- `NonlinearSolverOptions`, solver_config.hpp 375-403 (without the trust region scaling and `force_monolithic`). -/
structure NonlinearOptions (T : Type) where
  solver : Nonlinear
  relTol : T
  absTol : T
  minIter : Int
  maxIter : Int
  maxLineSearch : Int
  printLevel : Int

/-! ## Input file -/

/-- The table `linear` of an input file that passed verification, defaults filled in (1054-1084). -/
structure LinearTable (T : Type) where
  type : String
  relTol : T
  absTol : T
  maxIter : Int
  printLevel : Int
  solverType : String
  precType : String
  petscPrecType : String
  directPrintLevel : Int

/-- The table `nonlinear` (1086-1091). -/
structure NonlinearTable (T : Type) where
  relTol : T
  absTol : T
  maxIter : Int
  printLevel : Int
  solverType : String

/-- `stringToPetscPCType`, petsc_solvers.cpp 544-564: `unordered_map::at` throws for an unknown key. -/
def stringToPetsc : String → Res PetscPC
  | "jacobi" => .ok .JACOBI
  | "jacobi_l1" => .ok .JACOBI_L1
  | "jacobi_rowsum" => .ok .JACOBI_ROWSUM
  | "jacobi_rowmax" => .ok .JACOBI_ROWMAX
  | "pbjacobi" => .ok .PBJACOBI
  | "bjacobi" => .ok .BJACOBI
  | "lu" => .ok .LU
  | "ilu" => .ok .ILU
  | "cholesky" => .ok .CHOLESKY
  | "svd" => .ok .SVD
  | "asm" => .ok .ASM
  | "gasm" => .ok .GASM
  | "gamg" => .ok .GAMG
  | "hmg" => .ok .HMG
  | "none" => .ok .NONE
  | _ => .refused

/-- Lines 1117-1124. -/
def decodeSolver (s : String) : Res Linear :=
  if s = "gmres" then .ok .GMRES
  else if s = "cg" then .ok .CG
  else .refused

/-- Lines 1125-1152; the second component is `petsc_preconditioner`, default `JACOBI`. -/
def decodePrec (c : Config) (s petsc : String) : Res (Prec × PetscPC) :=
  if s = "JacobiSmoother" then .ok (.HypreJacobi, .JACOBI)
  else if s = "L1JacobiSmoother" then .ok (.HypreL1Jacobi, .JACOBI)
  else if s = "HypreAMG" then .ok (.HypreAMG, .JACOBI)
  else if s = "ILU" then .ok (.HypreILU, .JACOBI)
  else if c.amgx = true ∧ s = "AMGX" then .ok (.AMGX, .JACOBI)
  else if s = "GaussSeidel" then .ok (.HypreGaussSeidel, .JACOBI)
  else if c.petsc = true ∧ s = "Petsc" then (stringToPetsc petsc).bind fun p => .ok (.Petsc, p)
  else .refused

/-- `FromInlet<LinearSolverOptions>`, 1099-1155.  `dRel`, `dAbs` are the defaults of the record, `1e-8` and `1e-12`. -/
def decodeLinear {T : Type} (c : Config) (dRel dAbs : T) (t : LinearTable T) : Res (LinearOptions T) :=
  if t.type = "direct" then
    .ok ⟨.SuperLU, .HypreJacobi, .JACOBI, dRel, dAbs, 300, t.directPrintLevel, 0⟩
  else
    (decodeSolver t.solverType).bind fun s =>
      (decodePrec c t.precType t.petscPrecType).bind fun p =>
        .ok ⟨s, p.1, p.2, t.relTol, t.absTol, t.maxIter, t.printLevel, 0⟩

/-- `FromInlet<NonlinearSolverOptions>`, 1157-1178. -/
def decodeNonlinear {T : Type} (t : NonlinearTable T) : Res (NonlinearOptions T) :=
  if t.solverType = "Newton" then .ok ⟨.Newton, t.relTol, t.absTol, 0, t.maxIter, 0, t.printLevel⟩
  else if t.solverType = "KINFullStep" then .ok ⟨.KINFullStep, t.relTol, t.absTol, 0, t.maxIter, 0, t.printLevel⟩
  else if t.solverType = "KINLineSearch" then .ok ⟨.KINBacktrackingLineSearch, t.relTol, t.absTol, 0, t.maxIter, 0, t.printLevel⟩
  else if t.solverType = "KINPicard" then .ok ⟨.KINPicard, t.relTol, t.absTol, 0, t.maxIter, 0, t.printLevel⟩
  else .refused

/-! ## Building -/

/-- A linear solver object. -/
inductive LinSolver (T : Type) where
  /-- `SuperLUSolver(print_level, comm)` -/
  | superLU (print : Int)
  /-- `StrumpackSolver(print_level, comm)` -/
  | strumpack (print : Int)
  /-- an `mfem::IterativeSolver` of the given class with relative and absolute tolerance, iteration limit and print level, and whether a preconditioner was
  attached -/
  | iterative (cls : String) (rel abs : T) (maxIter print : Int) (prec : Bool)

/-- A preconditioner object. -/
inductive PrecObj where
  | boomerAMG (print : Int)
  | smoother (type : String)
  | ilu (fill print : Int)
  | amgx
  | petsc (p : PetscPC)

/-- `buildPreconditioner`, 1007-1052: `none` is an empty pointer. -/
def buildPrec {T : Type} (c : Config) (o : LinearOptions T) : Res (Option PrecObj) :=
  match o.prec with
  | .HypreAMG => .ok (some (.boomerAMG o.printLevel))
  | .HypreJacobi => .ok (some (.smoother "Jacobi"))
  | .HypreL1Jacobi => .ok (some (.smoother "l1Jacobi"))
  | .HypreGaussSeidel => .ok (some (.smoother "GS"))
  | .HypreILU => .ok (some (.ilu 1 o.printLevel))
  | .AMGX => if c.amgx then .ok (some .amgx) else .refused
  | .Petsc => if c.petsc then .ok (some (.petsc o.petscPrec)) else .refused
  | .None => .ok none

/-- `buildLinearSolverAndPreconditioner`, 893-950. -/
def buildLinear {T : Type} (c : Config) (o : LinearOptions T) : Res (LinSolver T × Option PrecObj) :=
  (buildPrec c o).bind fun p =>
    let iter (cls : String) : Res (LinSolver T × Option PrecObj) :=
      .ok (.iterative cls o.relTol o.absTol o.maxIter o.printLevel p.isSome, p)
    match o.solver with
    | .SuperLU => .ok (.superLU o.printLevel, p)
    | .Strumpack => if c.strumpack then .ok (.strumpack o.printLevel, p) else .refused
    | .CG => iter "mfem::CGSolver"
    | .GMRES => iter "mfem::GMRESSolver"
    | .PetscCG => if c.petsc then iter "PetscKSPSolver KSPCG" else .refused
    | .PetscGMRES => if c.petsc then iter "PetscKSPSolver KSPGMRES" else .refused

/-- A nonlinear solver object: its class, tolerances, iteration limit, print level and whether the initial guess is kept (`iterative_mode`). -/
structure NonlinSolver (T : Type) where
  cls : String
  rel : T
  abs : T
  maxIter : Int
  print : Int
  keepsGuess : Bool

/-- The class created by `buildNonlinearSolver`, 826-876. -/
def nonlinearClass {T : Type} (c : Config) (o : NonlinearOptions T) : Res String :=
  let plain (s : String) : Res String := if o.minIter ≠ 0 ∨ o.maxLineSearch ≠ 0 then .refused else .ok s
  let kinsol (s : String) : Res String := if c.sundials then plain s else .refused
  let petsc : Res String := if c.petsc then .ok "PetscNewtonSolver" else .refused
  match o.solver with
  | .Newton => plain "NewtonSolver"
  | .LBFGS => plain "mfem::LBFGSSolver"
  | .NewtonLineSearch => .ok "NewtonSolver"
  | .TrustRegion => .ok "TrustRegion"
  | .PetscNewton => petsc
  | .PetscNewtonBacktracking => petsc
  | .PetscNewtonCriticalPoint => petsc
  | .PetscTrustRegion => petsc
  | .KINFullStep => kinsol "mfem::KINSolver KIN_NONE"
  | .KINBacktrackingLineSearch => kinsol "mfem::KINSolver KIN_LINESEARCH"
  | .KINPicard => kinsol "mfem::KINSolver KIN_PICARD"

/-- `buildNonlinearSolver`, 820-891. -/
def buildNonlinear {T : Type} (c : Config) (o : NonlinearOptions T) : Res (NonlinSolver T) :=
  (nonlinearClass c o).bind fun s => .ok ⟨s, o.relTol, o.absTol, o.maxIter, o.printLevel, true⟩

/-- The members of an `EquationSolver`. -/
structure Equation (T : Type) where
  nonlin : NonlinSolver T
  lin : LinSolver T
  prec : Option PrecObj

/-- `EquationSolver(nonlinear_opts, lin_opts, comm)`, 687-694, and the end of `FromInlet<EquationSolver>`, 1180-1188: both form `*preconditioner` to call
`buildNonlinearSolver`. -/
def build {T : Type} (c : Config) (n : NonlinearOptions T) (l : LinearOptions T) : Res (Equation T) :=
  (buildLinear c l).bind fun lp =>
    match lp.2 with
    | none => .undefined
    | some p => (buildNonlinear c n).bind fun s => .ok ⟨s, lp.1, some p⟩

/-- `FromInlet<EquationSolver>`, 1180-1188. -/
def fromInlet {T : Type} (c : Config) (dRel dAbs : T) (l : LinearTable T) (n : NonlinearTable T) : Res (Equation T) :=
  (decodeLinear c dRel dAbs l).bind fun lo => (decodeNonlinear n).bind fun no => build c no lo

end Serac.SolverOptions
