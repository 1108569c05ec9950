import Verif.Model.SolverOptions
import Mathlib.Tactic.FinCases
import Mathlib.Data.Finset.Basic
/-!
# C44: solver options

The documentation (schema strings at equation_solver.cpp 1054-1091) lists
`gmres|minres|cg`, `JacobiSmoother|L1JacobiSmoother|AMG|ILU|Petsc` and `Newton|KINFullStep|KINLineSearch`.
-/

namespace Serac.C44
open Serac.SolverOptions

variable {T : Type}

/-! ## What a string means: independent tables -/

/-- The linear solver a documented string names, as the class mfem uses for it. -/
inductive NamesLinear : String → String → Prop
  | gmres : NamesLinear "gmres" "mfem::GMRESSolver"
  | minres : NamesLinear "minres" "mfem::MINRESSolver"
  | cg : NamesLinear "cg" "mfem::CGSolver"

/-- The preconditioner a documented string names (`n` is the print level). -/
inductive NamesPrec (n : Int) : String → PrecObj → Prop
  | jacobi : NamesPrec n "JacobiSmoother" (.smoother "Jacobi")
  | l1 : NamesPrec n "L1JacobiSmoother" (.smoother "l1Jacobi")
  | amg : NamesPrec n "AMG" (.boomerAMG n)
  | ilu : NamesPrec n "ILU" (.ilu 1 n)
  | petsc (p : PetscPC) : NamesPrec n "Petsc" (.petsc p)

/-- The nonlinear solver a documented string names. -/
inductive NamesNonlinear : String → String → Prop
  | newton : NamesNonlinear "Newton" "NewtonSolver"
  | full : NamesNonlinear "KINFullStep" "mfem::KINSolver KIN_NONE"
  | search : NamesNonlinear "KINLineSearch" "mfem::KINSolver KIN_LINESEARCH"

private theorem prec_inv {n : Int} {s : String} {q : PrecObj} (h : NamesPrec n s q) :
    (s = "JacobiSmoother" ∧ q = .smoother "Jacobi") ∨ (s = "L1JacobiSmoother" ∧ q = .smoother "l1Jacobi") ∨ (s = "AMG" ∧ q = .boomerAMG n) ∨
      (s = "ILU" ∧ q = .ilu 1 n) ∨ s = "Petsc" := by
  cases h <;> simp

private theorem nonlinear_inv {s k : String} (h : NamesNonlinear s k) : s = "Newton" ∨ s = "KINFullStep" ∨ s = "KINLineSearch" := by
  cases h <;> simp

/-! ## The claim, and where it fails -/

/-- The first part of the claim as stated: a documented string is accepted. -/
def DocumentedAccepted (T : Type) : Prop :=
  ∀ (c : Config) (dRel dAbs : T) (l : LinearTable T), l.type = "iterative" → (∃ k, NamesLinear l.solverType k) → (∃ n p, NamesPrec n l.precType p) →
    ∃ o, decodeLinear c dRel dAbs l = .ok o

/-- `minres`, a documented linear solver, is refused whatever else the table says. -/
theorem C44_minres_wrong (c : Config) (dRel dAbs : T) (l : LinearTable T) (ht : l.type ≠ "direct") (hs : l.solverType = "minres") :
    decodeLinear c dRel dAbs l = .refused := by
  simp [decodeLinear, ht, hs, decodeSolver, Res.bind]

/-- `AMG`, a documented preconditioner, is refused whatever else the table says and whatever serac was built with. -/
theorem C44_amg_wrong (c : Config) (dRel dAbs : T) (l : LinearTable T) (ht : l.type ≠ "direct") (hs : l.precType = "AMG") :
    decodeLinear c dRel dAbs l = .refused := by
  have h1 : decodePrec c "AMG" l.petscPrecType = .refused := by simp [decodePrec]
  unfold decodeLinear decodeSolver
  rw [if_neg ht, hs, h1]
  split_ifs <;> rfl

theorem C44_documented_wrong [Inhabited T] : ¬ DocumentedAccepted T := by
  intro h
  have := h ⟨true, true, true, true⟩ default default ⟨"iterative", default, default, 5000, 0, "minres", "ILU", "jacobi", 0⟩ rfl ⟨_, .minres⟩ ⟨0, _, .ilu⟩
  obtain ⟨o, ho⟩ := this
  rw [C44_minres_wrong _ _ _ _ (by decide : ("iterative" : String) ≠ "direct") rfl] at ho
  cases ho

/-- Strings outside the documented lists that are accepted: `HypreAMG`, `GaussSeidel`, `KINPicard` (and `AMGX` where AMGX is available). -/
theorem C44_undocumented_wrong (c : Config) (dRel dAbs : T) (l : LinearTable T) (ht : l.type ≠ "direct") (hs : l.solverType = "gmres" ∨ l.solverType = "cg")
    (hp : l.precType = "HypreAMG" ∨ l.precType = "GaussSeidel" ∨ (c.amgx = true ∧ l.precType = "AMGX")) (n : NonlinearTable T)
    (hn : n.solverType = "KINPicard") :
    (∃ o, decodeLinear c dRel dAbs l = .ok o) ∧ (∃ o, decodeNonlinear n = .ok o) ∧
      (¬ ∃ k p, NamesPrec k l.precType p) ∧ ¬ ∃ k, NamesNonlinear n.solverType k := by
  refine ⟨?_, ⟨_, by simp [decodeNonlinear, hn]; rfl⟩, ?_, ?_⟩
  · rcases hs with hs | hs <;> rcases hp with hp | hp | ⟨ha, hp⟩ <;>
      exact ⟨_, by simp [decodeLinear, decodeSolver, decodePrec, Res.bind, *]; rfl⟩
  · rintro ⟨k, p, h⟩
    have := prec_inv h
    rcases hp with hp | hp | ⟨_, hp⟩ <;> rw [hp] at this <;> simp at this
  · rintro ⟨k, h⟩
    have := nonlinear_inv h
    rw [hn] at this; simp at this

/-! ## What holds -/

/-- Which strings are accepted, exactly.  A table is accepted if and only if its type is `direct`, or its solver is `gmres` or `cg` and its preconditioner
is one of six names, the last two depending on the build; `Petsc` needs one of the fifteen PETSc names as well. -/
theorem C44_accepted_partial (c : Config) (dRel dAbs : T) (l : LinearTable T) :
    (∃ o, decodeLinear c dRel dAbs l = .ok o) ↔
      (l.type = "direct" ∨ ((l.solverType = "gmres" ∨ l.solverType = "cg") ∧
        (l.precType ∈ ["JacobiSmoother", "L1JacobiSmoother", "HypreAMG", "ILU", "GaussSeidel"] ∨ (c.amgx = true ∧ l.precType = "AMGX") ∨
          (c.petsc = true ∧ l.precType = "Petsc" ∧ l.petscPrecType ∈ ["jacobi", "jacobi_l1", "jacobi_rowsum", "jacobi_rowmax", "pbjacobi", "bjacobi", "lu", "ilu",
            "cholesky", "svd", "asm", "gasm", "gamg", "hmg", "none"])))) := by
  have hP : ∀ s, (∃ p, stringToPetsc s = .ok p) ↔ s ∈ ["jacobi", "jacobi_l1", "jacobi_rowsum", "jacobi_rowmax", "pbjacobi", "bjacobi", "lu", "ilu",
      "cholesky", "svd", "asm", "gasm", "gamg", "hmg", "none"] := by
    intro s
    constructor
    · rintro ⟨p, h⟩
      unfold stringToPetsc at h
      split at h <;> first | (cases h; done) | (simp; done)
    · intro h
      simp only [List.mem_cons, List.not_mem_nil, or_false] at h
      rcases h with h | h | h | h | h | h | h | h | h | h | h | h | h | h | h <;> subst h <;> exact ⟨_, rfl⟩
  rw [← hP]
  unfold decodeLinear
  by_cases ht : l.type = "direct"
  · simp [ht]
  rw [if_neg ht]
  unfold decodeSolver
  by_cases h1 : l.solverType = "gmres" ∨ l.solverType = "cg"
  · obtain ⟨k, hk⟩ : ∃ k, (if l.solverType = "gmres" then Res.ok Linear.GMRES else if l.solverType = "cg" then .ok .CG else .refused) = Res.ok k := by
      rcases h1 with h | h <;> exact ⟨_, by simp [h]; rfl⟩
    rw [hk]
    simp only [Res.bind, ht, h1, false_or, true_and]
    unfold decodePrec
    split_ifs with p1 p2 p3 p4 p5 p6 p7
    · simp [p1]
    · simp [p2]
    · simp [p3]
    · simp [p4]
    · simp [p5]
    · simp [p6]
    · rw [p7.2]
      simp only [List.mem_cons, List.not_mem_nil, p7.1, true_and]
      cases h : stringToPetsc l.petscPrecType <;> simp [Res.bind]
    · simp_all
  · push Not at h1
    simp [h1.1, h1.2, Res.bind, ht]

theorem C44_accepted_nonlinear (n : NonlinearTable T) :
    (∃ o, decodeNonlinear n = .ok o) ↔ n.solverType ∈ ["Newton", "KINFullStep", "KINLineSearch", "KINPicard"] := by
  unfold decodeNonlinear
  split_ifs with h1 h2 h3 h4
  · simp [h1]
  · simp [h2]
  · simp [h3]
  · simp [h4]
  · simp [h1, h2, h3, h4]

/-- No table is undefined behaviour: a table that is not accepted is refused. -/
theorem C44_refused (c : Config) (dRel dAbs : T) (l : LinearTable T) (n : NonlinearTable T) :
    ((¬ ∃ o, decodeLinear c dRel dAbs l = .ok o) → decodeLinear c dRel dAbs l = .refused) ∧
      ((¬ ∃ o, decodeNonlinear n = .ok o) → decodeNonlinear n = .refused) := by
  have hs : ∀ s, stringToPetsc s ≠ .undefined := by
    intro s h; unfold stringToPetsc at h; split at h <;> cases h
  have hp : ∀ s t, decodePrec c s t ≠ .undefined := by
    intro s t h
    unfold decodePrec at h
    split_ifs at h
    cases h2 : stringToPetsc t <;> rw [h2] at h
    · cases h
    · cases h
    · exact hs _ h2
  constructor
  · intro h
    cases h2 : decodeLinear c dRel dAbs l with
    | ok o => exact absurd ⟨o, h2⟩ h
    | refused => rfl
    | undefined =>
      exfalso
      unfold decodeLinear decodeSolver at h2
      split_ifs at h2 <;> simp only [Res.bind] at h2
      all_goals first
        | (cases h3 : decodePrec c l.precType l.petscPrecType <;> rw [h3] at h2
           · cases h2
           · cases h2
           · exact hp _ _ h3)
        | cases h2
  · intro h
    unfold decodeNonlinear at h ⊢
    split_ifs at h ⊢
    all_goals first | rfl | exact absurd ⟨_, rfl⟩ h

/-- A decoded table keeps every number of the table, and the objects built from it carry exactly those numbers: class, tolerances, iteration limit and print
level of the linear and of the nonlinear solver; the preconditioner is attached to the linear solver and shared with the nonlinear one; the nonlinear
solver keeps the initial guess. -/
theorem C44_built (c : Config) (dRel dAbs : T) (l : LinearTable T) (n : NonlinearTable T) (e : Equation T)
    (h : fromInlet c dRel dAbs l n = .ok e) :
    (l.type = "direct" → e.lin = .superLU l.directPrintLevel) ∧
      (l.type ≠ "direct" → ∃ k, e.lin = .iterative k l.relTol l.absTol l.maxIter l.printLevel true ∧ NamesLinear l.solverType k) ∧
      (∃ p, e.prec = some p ∧ (l.type ≠ "direct" → (∀ q, NamesPrec l.printLevel l.precType q → l.precType ≠ "Petsc" → p = q) ∧
        (l.precType = "HypreAMG" → p = .boomerAMG l.printLevel) ∧ (l.precType = "GaussSeidel" → p = .smoother "GS") ∧ (l.precType = "AMGX" → p = .amgx) ∧
        (l.precType = "Petsc" → ∃ q, stringToPetsc l.petscPrecType = .ok q ∧ p = .petsc q))) ∧
      e.nonlin.rel = n.relTol ∧ e.nonlin.abs = n.absTol ∧ e.nonlin.maxIter = n.maxIter ∧ e.nonlin.print = n.printLevel ∧ e.nonlin.keepsGuess = true ∧
      (NamesNonlinear n.solverType e.nonlin.cls ∨ (n.solverType = "KINPicard" ∧ e.nonlin.cls = "mfem::KINSolver KIN_PICARD")) := by
  have bindok : ∀ {α β : Type} {r : Res α} {f : α → Res β} {b : β}, r.bind f = .ok b → ∃ a, r = .ok a ∧ f a = .ok b := by
    intro α β r f b h
    cases r with
    | ok a => exact ⟨a, rfl, h⟩
    | refused => cases h
    | undefined => cases h
  unfold fromInlet at h
  obtain ⟨lo, hlo, h⟩ := bindok h
  obtain ⟨no, hno, h⟩ := bindok h
  unfold build at h
  obtain ⟨lp, hlp, h⟩ := bindok h
  cases hp : lp.2 with
  | none => rw [hp] at h; cases h
  | some p =>
    rw [hp] at h
    obtain ⟨s, hs, h⟩ := bindok h
    cases h
    unfold buildNonlinear at hs
    obtain ⟨cls, hcls, hs⟩ := bindok hs
    cases hs
    have hnon : no.relTol = n.relTol ∧ no.absTol = n.absTol ∧ no.maxIter = n.maxIter ∧ no.printLevel = n.printLevel ∧
        (NamesNonlinear n.solverType cls ∨ (n.solverType = "KINPicard" ∧ cls = "mfem::KINSolver KIN_PICARD")) := by
      unfold decodeNonlinear at hno
      split_ifs at hno with h1 h2 h3 h4 <;> cases hno <;> refine ⟨rfl, rfl, rfl, rfl, ?_⟩ <;> simp [nonlinearClass] at hcls
      · left; rw [h1, ← hcls]; exact .newton
      · split_ifs at hcls; cases hcls; left; rw [h2]; exact .full
      · split_ifs at hcls; cases hcls; left; rw [h3]; exact .search
      · split_ifs at hcls; cases hcls; right; exact ⟨h4, rfl⟩
    unfold buildLinear at hlp
    obtain ⟨po, hpo, hlp⟩ := bindok hlp
    unfold decodeLinear at hlo
    by_cases ht : l.type = "direct"
    · rw [if_pos ht] at hlo
      cases hlo
      cases hlp
      exact ⟨fun _ => rfl, fun h => absurd ht h, ⟨p, rfl, fun h => absurd ht h⟩, hnon.1, hnon.2.1, hnon.2.2.1, hnon.2.2.2.1, rfl, hnon.2.2.2.2⟩
    · rw [if_neg ht] at hlo
      obtain ⟨k, hk, hlo⟩ := bindok hlo
      obtain ⟨pp, hpp, hlo⟩ := bindok hlo
      cases hlo
      have hpo' : po = some p := by
        unfold decodeSolver at hk
        split_ifs at hk <;> cases hk <;> cases hlp <;> exact hp
      subst hpo'
      refine ⟨fun h => absurd h ht, fun _ => ?_, ⟨p, rfl, fun _ => ?_⟩, hnon.1, hnon.2.1, hnon.2.2.1, hnon.2.2.2.1, rfl, hnon.2.2.2.2⟩
      · unfold decodeSolver at hk
        split_ifs at hk with h1 h2 <;> cases hk <;> cases hlp
        · exact ⟨_, rfl, h1 ▸ .gmres⟩
        · exact ⟨_, rfl, h2 ▸ .cg⟩
      · clear hlp hcls hnon h
        unfold decodePrec at hpp
        split_ifs at hpp with p1 p2 p3 p4 p5 p6 p7
        · cases hpp
          cases hpo
          refine ⟨fun q hq _ => ?_, fun h => ?_, fun h => ?_, fun h => ?_, fun h => ?_⟩ <;> first | (have := prec_inv hq; rw [p1] at this; simp at this; exact this.symm) | (rw [p1] at h; simp at h; done)
        · cases hpp
          cases hpo
          refine ⟨fun q hq _ => ?_, fun h => ?_, fun h => ?_, fun h => ?_, fun h => ?_⟩ <;> first | (have := prec_inv hq; rw [p2] at this; simp at this; exact this.symm) | (rw [p2] at h; simp at h; done)
        · cases hpp
          cases hpo
          refine ⟨fun q hq _ => ?_, fun h => rfl, fun h => ?_, fun h => ?_, fun h => ?_⟩ <;> first | (have := prec_inv hq; rw [p3] at this; simp at this; done) | (rw [p3] at h; simp at h; done)
        · cases hpp
          cases hpo
          refine ⟨fun q hq _ => ?_, fun h => ?_, fun h => ?_, fun h => ?_, fun h => ?_⟩ <;> first | (have := prec_inv hq; rw [p4] at this; simp at this; exact this.symm) | (rw [p4] at h; simp at h; done)
        · cases hpp
          simp [buildPrec, p5.1] at hpo
          cases hpo
          refine ⟨fun q hq _ => ?_, fun h => ?_, fun h => ?_, fun h => rfl, fun h => ?_⟩ <;> first | (have := prec_inv hq; rw [p5.2] at this; simp at this; done) | (rw [p5.2] at h; simp at h; done)
        · cases hpp
          cases hpo
          refine ⟨fun q hq _ => ?_, fun h => ?_, fun h => rfl, fun h => ?_, fun h => ?_⟩ <;> first | (have := prec_inv hq; rw [p6] at this; simp at this; done) | (rw [p6] at h; simp at h; done)
        · obtain ⟨q, hq, hpp⟩ := bindok hpp
          cases hpp
          simp [buildPrec, p7.1] at hpo
          cases hpo
          exact ⟨fun _ _ h => absurd p7.2 h, fun h => (by rw [p7.2] at h; simp at h), fun h => (by rw [p7.2] at h; simp at h),
            fun h => (by rw [p7.2] at h; simp at h), fun _ => ⟨q, hq, rfl⟩⟩

/-- An input file never leads to undefined behaviour in building the solver (it cannot ask for no preconditioner). -/
theorem C44_defined (c : Config) (dRel dAbs : T) (l : LinearTable T) (n : NonlinearTable T) : fromInlet c dRel dAbs l n ≠ .undefined := by
  intro h
  unfold fromInlet at h
  cases hl : decodeLinear c dRel dAbs l with
  | refused => rw [hl] at h; cases h
  | undefined => exact absurd ((C44_refused c dRel dAbs l n).1 (by rintro ⟨o, ho⟩; rw [ho] at hl; cases hl)) (by rw [hl]; nofun)
  | ok lo =>
    rw [hl] at h
    cases hn : decodeNonlinear n with
    | refused => rw [hn] at h; cases h
    | undefined => exact absurd ((C44_refused c dRel dAbs l n).2 (by rintro ⟨o, ho⟩; rw [ho] at hn; cases hn)) (by rw [hn]; nofun)
    | ok no =>
      rw [hn] at h
      have hprec : lo.prec ≠ .None := by
        intro hc
        unfold decodeLinear decodeSolver decodePrec at hl
        split_ifs at hl <;> (try simp only [Res.bind] at hl)
        all_goals first
          | (cases hl; cases hc; done)
          | (cases hq : stringToPetsc l.petscPrecType <;> rw [hq] at hl <;> cases hl; cases hc)
          | cases hl
      have hcls : nonlinearClass c no ≠ .undefined := by
        unfold nonlinearClass
        cases no.solver <;> dsimp only <;> (try split_ifs) <;> nofun
      change build c no lo = _ at h
      unfold build buildLinear at h
      cases hb : buildPrec c lo with
      | refused => rw [hb] at h; cases h
      | undefined =>
        unfold buildPrec at hb
        cases hq : lo.prec <;> rw [hq] at hb <;> dsimp only at hb <;> (try split_ifs at hb) <;> cases hb
      | ok p =>
        cases p with
        | none =>
          unfold buildPrec at hb
          cases hq : lo.prec <;> rw [hq] at hb <;> dsimp only at hb <;> (try split_ifs at hb) <;> first | exact absurd hq hprec | cases hb
        | some p =>
          rw [hb] at h
          have hbn : buildNonlinear c no ≠ .undefined := by
            unfold buildNonlinear
            cases hc : nonlinearClass c no with
            | undefined => exact absurd hc hcls
            | ok s => nofun
            | refused => nofun
          simp only [Res.bind] at h
          cases hs : lo.solver <;> rw [hs] at h <;> dsimp only at h <;> (try split_ifs at h) <;>
            first
            | cases h
            | (cases hx : buildNonlinear c no <;> rw [hx] at h <;> first | exact hbn hx | cases h)

/-- An option record handed to the constructor directly can: `Preconditioner::None`, a documented value, makes the constructor dereference an empty pointer
whenever the linear solver itself can be built, whatever the nonlinear options are. -/
theorem C44_none_wrong (c : Config) (n : NonlinearOptions T) (l : LinearOptions T) (hp : l.prec = .None)
    (hl : l.solver = .CG ∨ l.solver = .GMRES ∨ l.solver = .SuperLU) : build c n l = .undefined := by
  rcases hl with h | h | h <;> simp [build, buildLinear, buildPrec, hp, h, Res.bind]

/-- Option records with a preconditioner: what is built carries the given numbers, whichever iterative solver is asked for; a solver that was not compiled in
is refused, never replaced by another. -/
theorem C44_record (c : Config) (n : NonlinearOptions T) (l : LinearOptions T) (e : Equation T) (h : build c n l = .ok e) :
    (l.solver ≠ .SuperLU → l.solver ≠ .Strumpack → ∃ k, e.lin = .iterative k l.relTol l.absTol l.maxIter l.printLevel true) ∧
      (l.solver = .CG → ∃ a b i p q, e.lin = .iterative "mfem::CGSolver" a b i p q) ∧
      (l.solver = .GMRES → ∃ a b i p q, e.lin = .iterative "mfem::GMRESSolver" a b i p q) ∧
      (l.solver = .PetscCG → c.petsc = true ∧ ∃ a b i p q, e.lin = .iterative "PetscKSPSolver KSPCG" a b i p q) ∧
      (l.solver = .PetscGMRES → c.petsc = true ∧ ∃ a b i p q, e.lin = .iterative "PetscKSPSolver KSPGMRES" a b i p q) ∧
      (l.solver = .SuperLU → e.lin = .superLU l.printLevel) ∧
      (l.solver = .Strumpack → c.strumpack = true ∧ e.lin = .strumpack l.printLevel) ∧
      e.nonlin.rel = n.relTol ∧ e.nonlin.abs = n.absTol ∧ e.nonlin.maxIter = n.maxIter ∧ e.nonlin.print = n.printLevel ∧ e.nonlin.keepsGuess = true := by
  unfold build at h
  cases hb : buildLinear c l with
  | refused => rw [hb] at h; cases h
  | undefined => rw [hb] at h; cases h
  | ok lp =>
    rw [hb] at h
    simp only [Res.bind] at h
    obtain ⟨ls, po⟩ := lp
    cases po with
    | none => cases h
    | some p =>
      dsimp only at h
      unfold buildNonlinear at h
      cases hc : nonlinearClass c n with
      | refused => rw [hc] at h; cases h
      | undefined => rw [hc] at h; cases h
      | ok s =>
        rw [hc] at h
        cases h
        unfold buildLinear at hb
        cases hq : buildPrec c l with
        | refused => rw [hq] at hb; cases hb
        | undefined => rw [hq] at hb; cases hb
        | ok q =>
          rw [hq] at hb
          simp only [Res.bind] at hb
          cases hs : l.solver <;> rw [hs] at hb <;> dsimp only at hb <;> (try split_ifs at hb with hcfg) <;> cases hb <;> simp <;> exact hcfg

/-- A refused combination is refused on purpose: minimum iterations or line search iterations given to a solver that cannot honour them. -/
theorem C44_unsupported (c : Config) (n : NonlinearOptions T) (l : LinearOptions T) (h : n.minIter ≠ 0 ∨ n.maxLineSearch ≠ 0)
    (hs : n.solver = .Newton ∨ n.solver = .LBFGS ∨ n.solver = .KINFullStep ∨ n.solver = .KINBacktrackingLineSearch ∨ n.solver = .KINPicard) :
    ∀ e, build c n l ≠ .ok e := by
  have hc : nonlinearClass c n = .refused := by
    unfold nonlinearClass
    rcases hs with hs | hs | hs | hs | hs <;> rw [hs] <;> dsimp only <;> (try split_ifs) <;> first | rfl | (rename_i hx; exact absurd h hx)
  intro e he
  unfold build at he
  cases hb : buildLinear c l with
  | refused => rw [hb] at he; cases he
  | undefined => rw [hb] at he; cases he
  | ok lp =>
    rw [hb] at he
    simp only [Res.bind] at he
    cases hq : lp.2 with
    | none => rw [hq] at he; cases he
    | some p => rw [hq] at he; simp [buildNonlinear, hc, Res.bind] at he

/-- `preconditioner_print_level` has no effect: the preconditioner gets the print level of the linear solver. -/
theorem C44_print_wrong (c : Config) (n : NonlinearOptions T) (l : LinearOptions T) (k : Int) :
    build c n { l with precPrintLevel := k } = build c n l ∧
      (l.prec = .HypreAMG → buildPrec c l = .ok (some (.boomerAMG l.printLevel))) := by
  refine ⟨rfl, fun h => by simp [buildPrec, h]⟩

/-! ## Examples -/

private def exL : LinearTable ℚ := ⟨"iterative", 1, 2, 5000, 0, "cg", "HypreAMG", "jacobi", 0⟩
private def exN : NonlinearTable ℚ := ⟨3, 4, 500, 1, "KINLineSearch"⟩

example : fromInlet ⟨true, false, false, false⟩ (5 : ℚ) 6 exL exN =
    .ok ⟨⟨"mfem::KINSolver KIN_LINESEARCH", 3, 4, 500, 1, true⟩, .iterative "mfem::CGSolver" 1 2 5000 0 true, some (.boomerAMG 0)⟩ := by
  simp [fromInlet, decodeLinear, decodeSolver, decodePrec, decodeNonlinear, build, buildLinear, buildPrec, buildNonlinear, nonlinearClass, Res.bind, exL, exN]

/-- Without SUNDIALS the same file is refused. -/
example : fromInlet ⟨false, false, false, false⟩ (5 : ℚ) 6 exL exN = .refused := by
  simp [fromInlet, decodeLinear, decodeSolver, decodePrec, decodeNonlinear, build, buildLinear, buildPrec, buildNonlinear, nonlinearClass, Res.bind, exL, exN]

end Serac.C44
