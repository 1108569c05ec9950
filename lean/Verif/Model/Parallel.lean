import Verif.Model.Newton
import Mathlib.Data.Matrix.Basic
import Mathlib.LinearAlgebra.Matrix.NonsingularInverse
import Mathlib.Analysis.Real.Sqrt
/-!
# `Functional` on several processors

`/repo/src/serac/numerics/functional/functional.hpp` 283-360 (`AddDomainIntegral`, `AddBoundaryIntegral`), 406-432 (`ActionOfGradient`), 447-498 (`operator()`), 567-660
(`Gradient::assemble`); `functional_qoi.inl` 20-38 (`QoIProlongation`), 330-375 (`operator()`); `physics/solid_mechanics.hpp` 1118-1145 and
`physics/heat_transfer.hpp` 705-730 (residual with the entries of the essential dofs zeroed, gradient with their rows and columns eliminated); `numerics/equation_solver.cpp`
81-201 (`NewtonSolver::Mult`, `Verif.Model.Newton`).

A mesh consists of entities (elements and boundary elements) of a type `ι`; `m` finite element spaces live on it, one of them the test space.  What is on which processor
is a `World`: the entities of every processor in its order, the numbers of its local dofs and true dofs, and the local dofs of every entity.  `tdof` is the
prolongation of mfem on conforming meshes for H1 and L2: a local dof has the value of one true dof, perhaps of another processor.

What an integrand does on an entity is data (`value`, `next`, `derivative`; C51 and C71 are about these).  Simplifications: an entity is gathered, evaluated and scattered
before the next one (C07, C52 and C53 are about the block vectors in between and the sparse matrix); derivatives are those of the arguments (C52 is about the buffers that
hold them).
-/

noncomputable section
namespace Serac.Parallel

/-- The numbers of dofs of every entity in every space, and whether it is a boundary element. -/
structure Shape (ι : Type) (m : ℕ) where
  dofs : Fin m → ι → ℕ
  boundary : ι → Bool

/-- What mfem tabulates for a space on `R` processors: `GetTrueVSize`, `GetVSize`, the true dof of every local dof. -/
structure Numbering (R : ℕ) where
  size : Fin R → ℕ
  lsize : Fin R → ℕ
  tdof : (r : Fin R) → Fin (lsize r) → Σ r, Fin (size r)

/-- The true dofs of all processors. -/
abbrev Numbering.True {R : ℕ} (K : Numbering R) : Type := Σ r, Fin (K.size r)

/-- `P->Mult` on processor `r`. -/
def Numbering.prolong {R : ℕ} (K : Numbering R) (r : Fin R) (v : K.True → ℝ) : Fin (K.lsize r) → ℝ := fun l => v (K.tdof r l)

/-- `P->MultTranspose`. -/
def Numbering.assemble {R : ℕ} (K : Numbering R) (w : (r : Fin R) → Fin (K.lsize r) → ℝ) : K.True → ℝ :=
  fun t => ∑ r, ∑ l, if K.tdof r l = t then w r l else 0

/-- `mfem::InnerProduct(comm, u, v)`: the products of the local blocks, summed by `MPI_Allreduce`. -/
def Numbering.dot {R : ℕ} (K : Numbering R) (u v : K.True → ℝ) : ℝ := ∑ r, ∑ i, u ⟨r, i⟩ * v ⟨r, i⟩

variable {ι : Type} {m : ℕ}

/-- A mesh and its spaces on several processors. -/
structure World (G : Shape ι m) where
  ranks : ℕ
  mine : Fin ranks → List ι
  space : Fin m → Numbering ranks
  ldof : (r : Fin ranks) → (i : Fin m) → (e : ι) → Fin (G.dofs i e) → Fin ((space i).lsize r)

/-- The dof values of an entity in all spaces. -/
abbrev Values (G : Shape ι m) (e : ι) : Type := (i : Fin m) → Fin (G.dofs i e) → ℝ

/-- `Integral`: domain, and on an entity with material state `q` what is added to the residual of test space `τ`, the next state and the derivative by argument `i`
(row: test dof). -/
structure Integral (G : Shape ι m) (τ : Fin m) (Q : Type) where
  boundary : Bool
  on : ι → Bool
  value : ℝ → (e : ι) → Q → Values G e → Fin (G.dofs τ e) → ℝ
  next : ℝ → (e : ι) → Q → Values G e → Q
  derivative : ℝ → (e : ι) → Q → Values G e → (i : Fin m) → Fin (G.dofs τ e) → Fin (G.dofs i e) → ℝ

/-- The true vectors of all spaces. -/
abbrev World.Fields {G : Shape ι m} (W : World G) : Type := (i : Fin m) → (W.space i).True → ℝ

/-- The material states one processor holds: for every integral, of every entity. -/
abbrev States (ι Q : Type) : Type := ℕ → ι → Q

section
variable {G : Shape ι m} {τ : Fin m} {Q : Type} (W : World G)

/-- The values of an entity: `P_trial_[i]->Mult` and `Gather`. -/
def World.values (r : Fin W.ranks) (u : W.Fields) (e : ι) : Values G e := fun i a => (W.space i).prolong r (u i) (W.ldof r i e a)

/-- The integrals a processor has: none are added without elements (boundary elements) (290, 307, 333, 347). -/
def World.added (r : Fin W.ranks) (I : Integral G τ Q) : Bool := (W.mine r).any fun e => G.boundary e == I.boundary

/-- The entities of the domain of an integral on a processor. -/
def World.domain (r : Fin W.ranks) (I : Integral G τ Q) : List ι :=
  if W.added r I then (W.mine r).filter fun e => G.boundary e == I.boundary && I.on e else []

/-- `ScatterAdd` of one entity. -/
def World.scatterAdd (r : Fin W.ranks) (e : ι) (y : Fin (G.dofs τ e) → ℝ) (out : Fin ((W.space τ).lsize r) → ℝ) : Fin ((W.space τ).lsize r) → ℝ :=
  fun l => out l + ∑ a, if W.ldof r τ e a = l then y a else 0

/-- `output_L_` on one processor. -/
def World.local (Is : List (Integral G τ Q)) (t : ℝ) (q : States ι Q) (u : W.Fields) (r : Fin W.ranks) : Fin ((W.space τ).lsize r) → ℝ :=
  Is.zipIdx.foldl (fun out p => (W.domain r p.1).foldl (fun out e => W.scatterAdd r e (p.1.value t e (q p.2 e) (W.values r u e)) out) out) fun _ => 0

/-- `operator()`: the true vector `output_T_`; `q r` the states of processor `r`. -/
def World.residual (Is : List (Integral G τ Q)) (t : ℝ) (q : Fin W.ranks → States ι Q) (u : W.Fields) : (W.space τ).True → ℝ :=
  (W.space τ).assemble fun r => W.local Is t (q r) u r

/-- The states of a processor after an evaluation with `update_qdata_`. -/
def World.advance [DecidableEq ι] (Is : List (Integral G τ Q)) (t : ℝ) (u : W.Fields) (q : Fin W.ranks → States ι Q) : Fin W.ranks → States ι Q := fun r =>
  Is.zipIdx.foldl (fun q p => (W.domain r p.1).foldl
    (fun q e => fun k e' => if k = p.2 ∧ e' = e then p.1.next t e (q p.2 e) (W.values r u e) else q k e') q) (q r)

/-- `ActionOfGradient` with respect to argument `i`. -/
def World.action (Is : List (Integral G τ Q)) (t : ℝ) (q : Fin W.ranks → States ι Q) (u : W.Fields) (i : Fin m) (dx : (W.space i).True → ℝ) : (W.space τ).True → ℝ :=
  (W.space τ).assemble fun r =>
    Is.zipIdx.foldl (fun out p => (W.domain r p.1).foldl (fun out e => W.scatterAdd r e
      (fun a => ∑ b, p.1.derivative t e (q r p.2 e) (W.values r u e) i a b * (W.space i).prolong r dx (W.ldof r i e b)) out) out) fun _ => 0

/-- `values[lookup_tables(row, col)] += elem_matrices(e, i, j)` for one entity. -/
def World.addMatrix (r : Fin W.ranks) (i : Fin m) (e : ι) (K : Fin (G.dofs τ e) → Fin (G.dofs i e) → ℝ)
    (J : Fin ((W.space τ).lsize r) → Fin ((W.space i).lsize r) → ℝ) : Fin ((W.space τ).lsize r) → Fin ((W.space i).lsize r) → ℝ :=
  fun l l' => J l l' + ∑ a, ∑ b, if W.ldof r τ e a = l ∧ W.ldof r i e b = l' then K a b else 0

/-- `J_local`. -/
def World.localMatrix (Is : List (Integral G τ Q)) (t : ℝ) (q : States ι Q) (u : W.Fields) (i : Fin m) (r : Fin W.ranks) :
    Fin ((W.space τ).lsize r) → Fin ((W.space i).lsize r) → ℝ :=
  Is.zipIdx.foldl (fun J p => (W.domain r p.1).foldl (fun J e => W.addMatrix r i e (p.1.derivative t e (q p.2 e) (W.values r u e) i) J) J) fun _ _ => 0

/-- `assemble()`: `RAP` of the block diagonal matrix of the local ones. -/
def World.matrix (Is : List (Integral G τ Q)) (t : ℝ) (q : Fin W.ranks → States ι Q) (u : W.Fields) (i : Fin m) :
    Matrix (W.space τ).True (W.space i).True ℝ := fun s s' =>
  ∑ r, ∑ l, ∑ l', if (W.space τ).tdof r l = s ∧ (W.space i).tdof r l' = s' then W.localMatrix Is t (q r) u i r l l' else 0

/-- A quantity of interest whose integrals add one number per entity: local sums and `MPI_Allreduce`. -/
def World.total (Is : List (Integral G τ Q × (ℝ → (e : ι) → Q → Values G e → ℝ))) (t : ℝ) (q : Fin W.ranks → States ι Q) (u : W.Fields) : ℝ :=
  ∑ r, Is.zipIdx.foldl (fun y p => (W.domain r p.1.1).foldl (fun y e => y + p.1.2 t e (q r p.2 e) (W.values r u e)) y) 0

/-- One evaluation: time, `update_qdata_`, arguments. -/
structure Call (W : World G) where
  t : ℝ
  update : Bool
  args : W.Fields

/-- A sequence of evaluations of one object: the residuals returned and the states at the end. -/
def World.run [DecidableEq ι] (Is : List (Integral G τ Q)) : List (Call W) → (Fin W.ranks → States ι Q) → List ((W.space τ).True → ℝ) × (Fin W.ranks → States ι Q)
  | [], q => ([], q)
  | c :: cs, q =>
    let rest := World.run Is cs (if c.update then W.advance Is c.t c.args q else q)
    (W.residual Is c.t q c.args :: rest.1, rest.2)

/-- The nonlinear problem given to the solver: unknown and test space `τ`, the other arguments fixed; `ess` marks the essential true dofs of every processor.  The
linear solver is exact. -/
def World.problem (Is : List (Integral G τ Q)) (t : ℝ) (q : Fin W.ranks → States ι Q) (u : W.Fields) (ess : (W.space τ).True → Bool) :
    Newton.Problem ((W.space τ).True → ℝ) ((W.space τ).True → ℝ) where
  oper x _ := .ok fun s => if ess s then 0 else W.residual Is t q (Function.update u τ x) s
  norm r := .fin (Real.sqrt ((W.space τ).dot r r))
  correction x r := (Matrix.of fun s s' =>
    if ess s || ess s' then (if s = s' then 1 else 0) else W.matrix Is t q (Function.update u τ x) τ s s')⁻¹.mulVec r

end

end Serac.Parallel
