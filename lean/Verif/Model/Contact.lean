import Mathlib.Data.Real.Basic
import Mathlib.Algebra.BigOperators.Group.Finset.Basic
import Mathlib.Order.Interval.Finset.Nat
import Mathlib.Logic.Function.Basic
/-!
# Contact bookkeeping

Model of `ContactData` (`src/serac/physics/contact/contact_data.cpp`) and `ContactInteraction`
(`src/serac/physics/contact/contact_interaction.cpp`), the version compiled with Tribol.

Tribol is external.  An interaction carries what Tribol holds for it: the size of its pressure space (on this rank; constant), the current
pressures `p` and gaps `g`, its constraint matrix `B` (the (1,0) block of its Jacobian) and its force as a function of the pressures.  Vectors
are functions on ℕ of which the first `size` entries matter; reading `pressure_dof_offsets_` outside its size has outcome `none`.
`HypreParMatrixFromBlocks` stacks the non-null blocks; `EliminateRows` zeroes rows.
-/

noncomputable section
namespace Serac.Contact
open Classical

structure Inter where
  /-- `enforcement == LagrangeMultiplier` -/
  lm : Bool
  /-- `type == Frictionless`; otherwise `TiedNormal` -/
  frictionless : Bool
  penalty : ℝ
  /-- true dofs of the pressure space -/
  size : ℕ
  p : ℕ → ℝ
  g : ℕ → ℝ
  B : ℕ → ℕ → ℝ
  /-- `inactive_tdofs_` of a tied interaction, set in the constructor (contact_interaction.cpp:43-64) -/
  fixedInactive : List ℕ

/-- `numPressureDofs` (contact_interaction.cpp:98-103). -/
def Inter.num (x : Inter) : ℕ := if x.lm then x.size else 0

/-- `inactiveDofs` (contact_interaction.cpp:115-131). -/
def Inter.inactive (x : Inter) : List ℕ :=
  if x.frictionless then (List.range x.size).filter fun d => decide (x.p d ≥ 0 ∧ x.g d ≥ -(1 / 10 ^ 14)) else x.fixedInactive

/-- The members of `ContactData` used here. -/
structure Data where
  inters : List Inter
  haveLM : Bool
  numDofs : ℕ
  upToDate : Bool
  /-- `pressure_dof_offsets_` -/
  offsets : List ℕ

/-- Constructor (contact_data.cpp:20-29). -/
def Data.new : Data := ⟨[], false, 0, false, []⟩

/-- `addContactInteraction` (contact_data.cpp:33-42). -/
def Data.add (s : Data) (x : Inter) : Data :=
  if x.lm then { s with inters := s.inters ++ [x], haveLM := true, numDofs := s.numDofs + x.num, upToDate := false }
  else { s with inters := s.inters ++ [x] }

/-- The loop over interactions (contact_data.cpp:313-316): running sum of `numPressureDofs`. -/
def scan : List Inter → ℕ → List ℕ
  | [], acc => [acc]
  | x :: xs, acc => acc :: scan xs (acc + x.num)

/-- `updateDofOffsets` (contact_data.cpp:304-340), local part. -/
def Data.refresh (s : Data) : Data :=
  if s.upToDate then s else { s with offsets := scan s.inters 0, upToDate := true }

/-- Tribol changes the pressures and gaps it holds. -/
def Data.tribol (s : Data) (p g : ℕ → ℕ → ℝ) (B : ℕ → ℕ → ℕ → ℝ) : Data :=
  { s with inters := s.inters.mapIdx fun i x => { x with p := p i, g := g i, B := B i } }

/-- What a user can do, in any order. -/
inductive Op where
  | add (x : Inter)
  /-- any of the calls that start with `updateDofOffsets` -/
  | query
  | tribol (p g : ℕ → ℕ → ℝ) (B : ℕ → ℕ → ℕ → ℝ)

def Data.step (s : Data) : Op → Data
  | .add x => s.add x
  | .query => s.refresh
  | .tribol p g B => s.tribol p g B

def Data.run (ops : List Op) : Data := ops.foldl Data.step Data.new

/-- Copy `src` into entries `[a, b)` of `v` (a `Vector` view and `Set(1.0, src)`). -/
def write (a b : ℕ) (src v : ℕ → ℝ) : ℕ → ℝ := fun k => if a ≤ k ∧ k < b then src (k - a) else v k

/-- The loop `for i … if LagrangeMultiplier …` of `mergedPressures` and `mergedGaps` (contact_data.cpp:72-80, 89-102); `i` is the index of
the first interaction of the list. -/
def mergeLoop (offsets : List ℕ) (val : Inter → ℕ → ℝ) : List Inter → ℕ → (ℕ → ℝ) → Option (ℕ → ℝ)
  | [], _, v => some v
  | x :: xs, i, v =>
    if x.lm then
      match offsets[i]?, offsets[i + 1]? with
      | some a, some b => mergeLoop offsets val xs (i + 1) (write a b (val x) v)
      | _, _ => none
    else mergeLoop offsets val xs (i + 1) v

/-- `mergedPressures` (contact_data.cpp:67-82); `junk` is the content of the new vector. -/
def mergedPressures (s : Data) (junk : ℕ → ℝ) : Option (ℕ → ℝ) := mergeLoop s.refresh.offsets Inter.p s.inters 0 junk

/-- `g` with inactive entries zeroed (contact_data.cpp:91-96). -/
def Inter.zeroedGap (x : Inter) (zeroInactive : Bool) : ℕ → ℝ := fun d => if zeroInactive ∧ d ∈ x.inactive then 0 else x.g d

/-- `mergedGaps` (contact_data.cpp:84-104). -/
def mergedGaps (s : Data) (zeroInactive : Bool) (junk : ℕ → ℝ) : Option (ℕ → ℝ) :=
  mergeLoop s.refresh.offsets (fun x => x.zeroedGap zeroInactive) s.inters 0 junk

/-- The pressure one interaction is given (contact_data.cpp:279-295). -/
def Inter.newPressure (x : Inter) (slice : ℕ → ℝ) : ℕ → ℝ := fun d =>
  if d ∈ x.inactive then 0 else if x.lm then slice d else x.penalty * x.g d

/-- Loop of `setPressures` (contact_data.cpp:278-295). -/
def setLoop (offsets : List ℕ) (merged : ℕ → ℝ) : List Inter → ℕ → Option (List Inter)
  | [], _ => some []
  | x :: xs, i =>
    if x.lm then
      match offsets[i]?, offsets[i + 1]? with
      | some a, some _ => (setLoop offsets merged xs (i + 1)).map fun r => { x with p := x.newPressure fun d => merged (a + d) } :: r
      | _, _ => none
    else (setLoop offsets merged xs (i + 1)).map fun r => { x with p := x.newPressure x.p } :: r

/-- `setPressures` (contact_data.cpp:275-297): the interactions with their new pressures. -/
def setPressures (s : Data) (merged : ℕ → ℝ) : Option Data :=
  (setLoop s.refresh.offsets merged s.inters 0).map fun xs => { s.refresh with inters := xs }

/-! ## Jacobian -/

/-- The list `inactive_tdofs` (contact_data.cpp:180-198): all interactions, penalty ones included. -/
def inactiveTdofs (offsets : List ℕ) : List Inter → ℕ → Option (List ℕ)
  | [], _ => some []
  | x :: xs, i =>
    (if x.inactive = [] then some [] else offsets[i]?.map fun a => x.inactive.map (· + a)).bind fun here =>
      (inactiveTdofs offsets xs (i + 1)).map fun rest => here ++ rest

/-- The array `rows` (contact_data.cpp:200-208). -/
def rows (t : List ℕ) : ℕ → ℕ
  | 0 => 0
  | i + 1 => if t[rows t i]? = some i then rows t i + 1 else rows t i

/-- Entry of the CSR matrix `inactive_diag` (contact_data.cpp:209-214), the (1,1) block. -/
def inactiveDiag (t : List ℕ) (k l : ℕ) : ℝ := ∑ idx ∈ Finset.Ico (rows t k) (rows t (k + 1)), if t[idx]? = some l then 1 else 0

/-- Constraint matrix of one interaction with inactive rows zeroed (contact_data.cpp:144). -/
def Inter.activeB (x : Inter) : ℕ → ℕ → ℝ := fun d j => if d ∈ x.inactive then 0 else x.B d j

/-- The (1,0) block: `HypreParMatrixFromBlocks` stacks the non-null blocks (contact_data.cpp:155-176). -/
def stack : List Inter → ℕ → ℕ → ℝ
  | [], _, _ => 0
  | x :: xs, k, j => if x.lm then (if k < x.size then x.activeB k j else stack xs (k - x.size) j) else stack xs k j

/-- Penalty contributions to the (0,0) block (contact_data.cpp:145-159): `penalty Bᵀ B` with inactive rows removed. -/
def penaltyBlock (xs : List Inter) (i j : ℕ) : ℝ :=
  (xs.filter fun x => !x.lm).foldl (fun acc x => acc + x.penalty * ∑ d ∈ Finset.range x.size, x.activeB d i * x.activeB d j) 0

/-- The blocks of `mergedJacobian` (contact_data.cpp:106-227) when there are Lagrange multipliers. -/
structure Blocks where
  J00 : ℕ → ℕ → ℝ
  J10 : ℕ → ℕ → ℝ
  J01 : ℕ → ℕ → ℝ
  J11 : ℕ → ℕ → ℝ

def mergedJacobian (s : Data) : Option Blocks :=
  (inactiveTdofs s.refresh.offsets s.inters 0).map fun t =>
    ⟨penaltyBlock s.inters, stack s.inters, fun j k => stack s.inters k j, inactiveDiag t⟩

/-! ## Across ranks -/

/-- `global_pressure_dof_offsets_` before the assumed-partition adjustment (contact_data.cpp:317-325): after the reduction entry `r + 1` holds
the count of rank `r`, then running sums. -/
def globalOffsets (counts : List ℕ) : List ℕ :=
  let a0 : ℕ → ℕ := fun i => if i = 0 then 0 else counts.getD (i - 1) 0
  -- for (int i{1}; i < NRanks; ++i) a[i + 1] += a[i];
  let a := (List.range (counts.length - 1)).foldl (fun (a : ℕ → ℕ) n => Function.update a (n + 2) (a (n + 2) + a (n + 1))) a0
  (List.range (counts.length + 1)).map a

/-- The three entries kept under `HYPRE_AssumedPartitionCheck` (contact_data.cpp:326-338): three assignments in sequence. -/
def assumedPartition (g : List ℕ) (rank : ℕ) : ℕ × ℕ × ℕ :=
  let total := g.getD (g.length - 1) 0
  let a0 : ℕ → ℕ := fun i => g.getD i 0
  let a1 := Function.update a0 0 (a0 rank)
  let a2 := Function.update a1 1 (a1 (rank + 1))
  let a3 := Function.update a2 2 total
  (a3 0, a3 1, a3 2)

end Serac.Contact
