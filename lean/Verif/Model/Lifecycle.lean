/-
Start-up and termination of a program.

Modelled:
* src/serac/infrastructure/initialize.cpp, 44-83: `initialize`;
* src/serac/infrastructure/logger.cpp, 14-89: `logger::initialize`, `finalize`, `flush`, as far as the
  library for messages is started, a logger is chosen and activated, and a first message is logged;
* src/serac/infrastructure/profiling.cpp, 23-74: `initialize`, `finalize`;
* src/serac/infrastructure/accelerator.cpp, 33-37: `terminateDevice`;
* src/serac/infrastructure/terminator.cpp, 24-28, 36-42, 46-74: `signalHandler`, `registerSignals`,
  `exitGracefully`.

The process is the root, which logs the first message.  Each call of a library is one instruction; a signal may arrive between any two of them.  Calls a library
does not allow are recorded as misuse and end the process.

Not modelled: signals that arrive in the middle of a library call, other processes (calls that wait for
them return), the start of Hypre, Sundials and SLEPc, the handlers PETSc installs and removes, static
destructors.
-/
import Mathlib.Data.List.Basic
import Mathlib.Logic.Function.Iterate

namespace Serac.Lifecycle

/-- The libraries that must be started and stopped. -/
inductive Lib
  | mpi | slic | prof | petsc
  deriving DecidableEq, Repr

/-- What is seen of a process. -/
inductive Ev
  /-- a message handed to the logger -/
  | logged (m : String)
  /-- a message on the console -/
  | printed (m : String)
  | started (l : Lib)
  | stopped (l : Lib)
  /-- a call that the library does not allow in its present state -/
  | misuse (l : Lib)
  /-- the line the signal handler writes -/
  | signalled
  | deviceReset
  deriving DecidableEq, Repr

/-- A library that can be started once: MPI. -/
inductive Mpi
  | unborn | up | down
  deriving DecidableEq, Repr

/-- How the code was compiled and started, and what the libraries answer. -/
structure Config where
  /-- more than one rank: messages are collected until the next flush (logger.cpp 47-63) -/
  parallel : Bool
  /-- SERAC_USE_PETSC -/
  petsc : Bool
  /-- `MPI_Init` succeeds -/
  mpiOk : Bool
  /-- `slic::activateLogger` succeeds -/
  logOk : Bool

structure St where
  mpi : Mpi := .unborn
  slic : Bool := false
  prof : Bool := false
  petsc : Bool := false
  handlers : Bool := false
  pending : List String := []
  trace : List Ev := []

/-- The calls. -/
inductive Instr
  | mpiInit
  | registerSignals
  | slicInit
  | activateLogger
  | profInit
  | petscInit
  | info (m : String)
  | flush
  | slicFinalize
  | petscFinalize
  | profFinalize
  | mpiFinalize
  | deviceReset
  /-- `if (slic::isInitialized()) { n calls }` -/
  | ifSlic (n : Nat)
  /-- `if (mpi_initialized && !mpi_finalized) { n calls }` -/
  | ifMpi (n : Nat)
  | exit (error : Bool)
  deriving DecidableEq, Repr

/-- What the process does next. -/
inductive Ctl
  | running (code : List Instr)
  | exited (error : Bool)
  /-- ended by a library or by the default action of a signal -/
  | killed
  deriving DecidableEq, Repr

structure Machine where
  st : St
  ctl : Ctl

/-- `exitGracefully(error)` (terminator.cpp 46-74). -/
def exitGracefully (c : Config) (error : Bool) : List Instr :=
  [.ifSlic 2, .flush, .slicFinalize] ++ (if c.petsc then [.petscFinalize] else []) ++
    [.profFinalize, .ifMpi 1, .mpiFinalize, .deviceReset, .exit error]

/-- The first message (logger.cpp 30, 80-82). -/
def hello (c : Config) : String :=
  "Logger activated: '" ++ (if c.parallel then "serac_parallel_logger" else "serac_serial_logger") ++ "'"

/-- `initialize` (initialize.cpp 44-83) with `logger::initialize` (logger.cpp 14-85). -/
def startUp (c : Config) : List Instr :=
  [.mpiInit, .registerSignals, .slicInit, .activateLogger, .info (hello c), .flush, .profInit] ++
    (if c.petsc then [.petscInit] else [])

def St.emit (s : St) (e : Ev) : St := { s with trace := s.trace ++ [e] }

/-- A call that the library does not allow ends the process. -/
def misused (s : St) (l : Lib) : Machine := ⟨s.emit (.misuse l), .killed⟩

/-- One call. -/
def call (c : Config) (s : St) (i : Instr) (rest : List Instr) : Machine :=
  match i with
  | .mpiInit =>
    if s.mpi = .unborn then
      if c.mpiOk then ⟨{ s with mpi := .up }.emit (.started .mpi), .running rest⟩
      else ⟨s, .running (exitGracefully c true)⟩
    else misused s .mpi
  | .registerSignals => ⟨{ s with handlers := true }, .running rest⟩
  | .slicInit =>
    if s.slic then ⟨s, .running rest⟩
    else ⟨{ s with slic := true }.emit (.started .slic), .running rest⟩
  | .activateLogger =>
    if c.logOk then ⟨s, .running rest⟩ else ⟨s, .running (exitGracefully c true)⟩
  | .profInit =>
    if s.mpi = .up then ⟨{ s with prof := true }.emit (.started .prof), .running rest⟩
    else misused s .prof
  | .petscInit =>
    if s.mpi = .up ∧ s.petsc = false then ⟨{ s with petsc := true }.emit (.started .petsc), .running rest⟩
    else misused s .petsc
  | .info m =>
    if s.slic then
      if c.parallel then ⟨{ s with pending := s.pending ++ [m] }.emit (.logged m), .running rest⟩
      else ⟨(s.emit (.logged m)).emit (.printed m), .running rest⟩
    else misused s .slic
  | .flush =>
    if s.slic ∧ (c.parallel → s.mpi = .up) then
      ⟨{ s with pending := [], trace := s.trace ++ s.pending.map .printed }, .running rest⟩
    else misused s .slic
  | .slicFinalize =>
    if s.slic ∧ (c.parallel → s.mpi = .up) then
      ⟨{ s with slic := false, pending := [] }.emit (.stopped .slic), .running rest⟩
    else misused s .slic
  | .petscFinalize =>
    if s.petsc ∧ s.mpi = .up then ⟨{ s with petsc := false }.emit (.stopped .petsc), .running rest⟩
    else misused s .petsc
  | .profFinalize =>
    if s.prof then
      if s.mpi = .up then ⟨{ s with prof := false }.emit (.stopped .prof), .running rest⟩
      else misused s .prof
    else ⟨s, .running rest⟩
  | .mpiFinalize =>
    if s.mpi = .up then ⟨{ s with mpi := .down }.emit (.stopped .mpi), .running rest⟩
    else misused s .mpi
  | .deviceReset => ⟨s.emit .deviceReset, .running rest⟩
  | .ifSlic n => ⟨s, .running (if s.slic then rest else rest.drop n)⟩
  | .ifMpi n => ⟨s, .running (if s.mpi = .up then rest else rest.drop n)⟩
  | .exit e => ⟨s, .exited e⟩

/-- The process makes its next call. -/
def next (c : Config) (m : Machine) : Machine :=
  match m.ctl with
  | .running (i :: rest) => call c m.st i rest
  | _ => m

/-- A signal arrives (`signalHandler`, terminator.cpp 24-28): the interrupted calls are never resumed. -/
def signal (c : Config) (m : Machine) : Machine :=
  match m.ctl with
  | .running _ =>
    if m.st.handlers then ⟨m.st.emit .signalled, .running (exitGracefully c true)⟩
    else ⟨m.st, .killed⟩
  | _ => m

/-- What happens next. -/
inductive Choice
  | step | signal
  deriving DecidableEq, Repr

def act (c : Config) (m : Machine) : Choice → Machine
  | .step => next c m
  | .signal => signal c m

/-- What a user's program does between start-up and termination, as far as messages are concerned. -/
inductive User
  | info (m : String)
  | flush

def User.instr : User → Instr
  | .info m => .info m
  | .flush => .flush

/-- `main`: start-up, the user's calls, termination (e.g. src/drivers/serac.cpp 246-426). -/
def program (c : Config) (body : List User) (error : Bool) : List Instr :=
  startUp c ++ (body.map User.instr ++ exitGracefully c error)

def boot (c : Config) (body : List User) (error : Bool) : Machine :=
  ⟨{}, .running (program c body error)⟩

/-- An execution. -/
def run (c : Config) (m : Machine) (cs : List Choice) : Machine := cs.foldl (act c) m

end Serac.Lifecycle
