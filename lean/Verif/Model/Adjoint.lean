import Verif.Model.Elimination
/-!
# Adjoint time stepping

Model of `adjoint_integrate` (`src/serac/physics/solid_mechanics.cpp:15-66`), `SolidMechanics::setAdjointLoad` and
`reverseAdjointTimestep` (`src/serac/physics/solid_mechanics.hpp:1311-1404`), `HeatTransfer::setAdjointLoad` and `reverseAdjointTimestep`
(`src/serac/physics/heat_transfer.hpp:792-810, 842-921`) and the sensitivities computed from their results
(`solid_mechanics.hpp:1407-1417, 1436-1440`).

`double` is ℝ; matrices are dense functions.  The linear solver is a parameter.  The matrices `K = dR/du` and `M = dR/da` (or `dR/du̇`)
assembled at the checkpointed end-of-step state are arguments: that they are the derivatives is C01-C09, that the checkpoint is the right
one is C27.
-/

noncomputable section
namespace Serac.Adj
open Serac.Elim

/-- `A^T x`. -/
def mulVecT {n : ℕ} (A : Mat n) (x : Vec n) : Vec n := fun i => ∑ j, A j i * x j

def transpose {n : ℕ} (A : Mat n) : Mat n := fun i j => A j i

/-- `mfem::Add(1.0, M, c, K)`. -/
def addMat {n : ℕ} (M : Mat n) (c : ℝ) (K : Mat n) : Mat n := fun i j => 1 * M i j + c * K i j

/-- `x.Add(c, y)`. -/
def axpy {n : ℕ} (x : Vec n) (c : ℝ) (y : Vec n) : Vec n := fun i => x i + c * y i

/-- Adjoint loads given by the user for one time step; velocity and acceleration are optional. -/
structure Load (n : ℕ) where
  gu : Vec n
  gv : Option (Vec n)
  ga : Option (Vec n)

/-- One time step of the forward problem, as the reverse step sees it. -/
structure Step (n : ℕ) where
  dt : ℝ
  M : Mat n
  K : Mat n
  load : Load n

/-- The adjoint members of `SolidMechanics`. -/
structure State (n : ℕ) where
  /-- `displacement_adjoint_load_`, `velocity_adjoint_load_`, `acceleration_adjoint_load_` -/
  du : Vec n
  dv : Vec n
  da : Vec n
  /-- `adjoint_displacement_` -/
  lam : Vec n
  /-- `implicit_sensitivity_displacement_start_of_step_` -/
  D : Vec n
  /-- `implicit_sensitivity_velocity_start_of_step_` -/
  V : Vec n

/-- Everything zero (solid_mechanics.hpp:380-387). -/
def init (n : ℕ) : State n := ⟨0, 0, 0, 0, 0, 0⟩

/-- solid_mechanics.hpp:1311-1338: a load that is not given keeps its previous value. -/
def setAdjointLoad {n : ℕ} (l : Load n) (s : State n) : State n :=
  { s with
    du := fun i => l.gu i * (-1)
    dv := match l.gv with
      | some g => fun i => g i * (-1)
      | none => s.dv
    da := match l.ga with
      | some g => fun i => g i * (-1)
      | none => s.da }

/-- `adjoint_integrate` (solid_mechanics.cpp:15-66).  `conds` are the essential boundary conditions' dof lists. -/
def adjointIntegrate {n : ℕ} (conds : List (List (Fin n))) (solve : Mat n → Vec n → Vec n) (dtn dtnp1 : ℝ) (M K : Mat n) (s : State n) :
    State n :=
  let beta : ℝ := 1 / 4
  let gamma : ℝ := 1 / 2
  let fac1 := 1 / 2 - beta
  let fac2 := 1 - gamma
  let fac3 := beta
  let fac4 := gamma
  let JT := transpose (addMat M (fac3 * dtn * dtn) K)
  let rhs := s.da
  let rhs := axpy rhs (fac4 * dtn) s.dv
  let rhs := axpy rhs (fac3 * dtn * dtn) s.du
  let rhs := axpy rhs (-dtnp1 * fac2 - dtn * fac4) s.V
  let rhs := axpy rhs (-dtnp1 * dtnp1 * fac1 - dtn * dtn * fac3 - dtn * dtnp1 * fac4) s.D
  let sys := applyAll conds 0 (JT, rhs)
  let lam := solve sys.1 sys.2
  let V := axpy s.V dtnp1 s.D
  let D := fun i => mulVecT K lam i + s.D i
  let D := axpy D (-1) s.du
  { s with lam := lam, V := V, D := D }

/-- The size of the next step, 0 after the last (`getCheckpointedTimestep`, base_physics.cpp:380-387). -/
def nextDt {n : ℕ} : List (Step n) → ℝ
  | [] => 0
  | s :: _ => s.dt

/-- Setting the load and reversing one time step, from the last to the first.  Returns the adjoint displacements (one per step) and the final
state. -/
def reversePass {n : ℕ} (conds : List (List (Fin n))) (solve : Mat n → Vec n → Vec n) : List (Step n) → State n → List (Vec n) × State n
  | [], s => ([], s)
  | st :: rest, s =>
    let (ls, s1) := reversePass conds solve rest s
    let s2 := adjointIntegrate conds solve st.dt (nextDt rest) st.M st.K (setAdjointLoad st.load s1)
    (s2.lam :: ls, s2)

/-- `resetAdjointStates` (base_physics.hpp:141-145, overridden nowhere) resets the time and cycle only; none of the adjoint members changes. -/
def resetAdjointStates {n : ℕ} (s : State n) : State n := s

/-- The quasi-static branch (solid_mechanics.hpp:1361-1374). -/
def quasistatic {n : ℕ} (conds : List (List (Fin n))) (solve : Mat n → Vec n → Vec n) (K : Mat n) (g : Vec n) : Vec n :=
  let sys := applyAll conds 0 (transpose K, fun i => g i * (-1))
  solve sys.1 sys.2

/-! ### Heat transfer -/

/-- Adjoint loads for one time step; the rate is optional. -/
structure HeatLoad (n : ℕ) where
  gT : Vec n
  gr : Option (Vec n)

structure HeatStep (n : ℕ) where
  dt : ℝ
  M : Mat n
  K : Mat n
  load : HeatLoad n

/-- The adjoint members of `HeatTransfer`. -/
structure HeatState (n : ℕ) where
  dT : Vec n
  dr : Vec n
  lam : Vec n
  /-- `implicit_sensitivity_temperature_start_of_step_` -/
  D : Vec n

def heatInit (n : ℕ) : HeatState n := ⟨0, 0, 0, 0⟩

/-- `resetAdjointStates` as inherited by `HeatTransfer` (base_physics.hpp:141-145). -/
def heatResetAdjointStates {n : ℕ} (s : HeatState n) : HeatState n := s

/-- heat_transfer.hpp:792-810 -/
def heatSetAdjointLoad {n : ℕ} (l : HeatLoad n) (s : HeatState n) : HeatState n :=
  { s with
    dT := fun i => l.gT i * (-1)
    dr := match l.gr with
      | some g => fun i => g i * (-1)
      | none => s.dr }

/-- The transient branch of `HeatTransfer::reverseAdjointTimestep` (heat_transfer.hpp:874-915).  The division by `dt` makes `dt = 0`
meaningless (infinities in C++), hence the `Option`. -/
def heatReverse {n : ℕ} (conds : List (List (Fin n))) (solve : Mat n → Vec n → Vec n) (dt : ℝ) (M K : Mat n) (s : HeatState n) :
    Option (HeatState n) :=
  let JT := transpose (addMat M dt K)
  let rhs := fun i => s.dT i * dt
  let rhs := axpy rhs 1 s.dr
  let rhs := axpy rhs (-dt) s.D
  let sys := applyAll conds 0 (JT, rhs)
  let lam := solve sys.1 sys.2
  if dt = 0 then none
  else
    let D := fun i => mulVec M lam i * (-1 / dt)
    let D := axpy D (1 / dt) s.dr
    some { s with lam := lam, D := D }

def heatPass {n : ℕ} (conds : List (List (Fin n))) (solve : Mat n → Vec n → Vec n) :
    List (HeatStep n) → HeatState n → Option (List (Vec n) × HeatState n)
  | [], s => some ([], s)
  | st :: rest, s =>
    (heatPass conds solve rest s).bind fun (ls, s1) =>
      (heatReverse conds solve st.dt st.M st.K (heatSetAdjointLoad st.load s1)).map fun s2 => (s2.lam :: ls, s2)

end Serac.Adj
