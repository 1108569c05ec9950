import Verif.Model.Lifecycle
import Mathlib.Data.Fintype.Basic
/-!
# Start-up and termination on several ranks

The processes of `Lifecycle.lean`, each with its own program, messages and pace.  Starting and stopping MPI, PETSc
and the profiler, and flushing the logger (`logger::flush`, src/serac/infrastructure/logger.hpp 40-47: "This is a
collective operation"; `exitGracefully`, terminator.hpp 36-46: "This is a collective function") complete only once
every rank makes the same call.  Everything else a rank does alone.

Simplified: a collective call takes effect on all ranks at the same moment; stopping the profiler always waits for
the other ranks; every rank logs the first message, which in the code only the root does.
-/

namespace Serac.Lifecycle

/-- Calls that wait for the other ranks. -/
def Instr.collective : Instr → Bool
  | .mpiInit | .petscInit | .flush | .petscFinalize | .profFinalize | .mpiFinalize => true
  | _ => false

/-- The collective call a process is about to make. -/
def Machine.waits (m : Machine) : Option Instr :=
  match m.ctl with
  | .running (i :: _) => if i.collective then some i else none
  | _ => none

def Machine.ended (m : Machine) : Prop := ∀ code, m.ctl ≠ .running code

/-- What the ranks can do without signals: one proceeds alone, or all make the same collective call. -/
inductive Step {n : ℕ} (c : Config) : (Fin n → Machine) → (Fin n → Machine) → Prop
  | alone (ms : Fin n → Machine) (r : Fin n) (h : (ms r).waits = none) (ha : ¬ (ms r).ended) :
      Step c ms (Function.update ms r (next c (ms r)))
  | together (ms : Fin n → Machine) (i : Instr) (h : ∀ r, (ms r).waits = some i) (r : Fin n) :
      Step c ms (fun r => next c (ms r))

/-- The same, when signals may reach single ranks. -/
inductive SignalStep {n : ℕ} (c : Config) : (Fin n → Machine) → (Fin n → Machine) → Prop
  | step (ms ms' : Fin n → Machine) (h : Step c ms ms') : SignalStep c ms ms'
  | signal (ms : Fin n → Machine) (r : Fin n) : SignalStep c ms (Function.update ms r (signal c (ms r)))

end Serac.Lifecycle
