import Verif.Model.Assemble
import Mathlib.Data.Real.Basic
import Mathlib.Algebra.BigOperators.Group.Finset.Basic
/-!
# Quantities of interest

`/repo/src/serac/numerics/functional/functional_qoi.inl`: `QoIProlongation` (20-38), `QoIElementRestriction` (45-53), `Functional<double(trials...)>` with
`AddDomainIntegral`, `AddBoundaryIntegral` (156-236), `ActionOfGradient` (287-317), `operator()` (330-375), `Gradient` (410-487); `integral.hpp` 65-124
(`Mult`, `GradientMult`, `ComputeElementGradients`) and the element loops of `domain_integral_kernels.hpp` 152-216, 275-305, 327-362.

Processors are entries of a list; a collective call acts on all of them.  What an integrand does on one element is data (`value`, `derivative`, `jvp`, `row`; C51 is
about these).  Simplifications: element values are gathered for every integral (the code does it once per call and space; C52 shows that this is the same); the blocks
of `output_E_` are separate vectors; integrands with material states are evaluated with `update_state = false`, so states are constants inside `value` (C41).
-/

noncomputable section
namespace Serac.QoI
open Assemble (Space off perElem)

/-- `Integral` for a quantity of interest: domain type, active trial spaces, geometries with kernels, elements of the domain of each geometry (`domain_.get(geom)`), and
the calculation on the `k`-th element of that list: its total, the derivative stored (argument position first), its product with a direction, and its row of the
gradient.  Element dof values are functions of the position in `dof_type`. -/
structure Integral (Tm D : Type) where
  boundary : Bool
  active : List ℕ
  geoms : List ℕ
  elements : ℕ → List ℕ
  value : ℕ → ℕ → Tm → List (ℕ → ℝ) → ℝ
  derivative : ℕ → ℕ → ℕ → Tm → List (ℕ → ℝ) → D
  jvp : ℕ → ℕ → D → (ℕ → ℝ) → ℝ
  row : ℕ → ℕ → D → ℕ → ℝ

/-- `functional_to_integral_index_`: a later entry replaces an earlier one. -/
def Integral.index {Tm D : Type} (I : Integral Tm D) : ℕ → Option ℕ :=
  I.active.zipIdx.foldl (fun m p => fun w => if w = p.1 then some p.2 else m w) (fun _ => none)

/-- The derivatives stored by an integral: argument position, geometry, number in the element list. -/
abbrev Buffer (D : Type) := ℕ → ℕ → ℕ → Option D

/-- One processor: restrictions of the trial spaces, number of elements and boundary elements of each geometry, sizes of the local vectors, rows of the prolongation. -/
structure Rank where
  space : ℕ → Space
  count : Bool → ℕ → ℕ
  lsize : ℕ → ℕ
  P : ℕ → ℕ → ℕ → ℝ

/-- What the object holds on one processor. -/
structure Local (Tm D : Type) where
  rank : Rank
  integrals : List (Integral Tm D × Buffer D)

/-- The object: its part on every processor and `output_T_[0]`, which is the same everywhere. -/
structure Mem (Tm D : Type) where
  locals : List (Local Tm D)
  outputT : ℝ

variable {Tm D : Type}

/-- `P_trial_[i]->Mult(x, input_L_[i])` on one processor; `n i` true dofs in all. -/
def Rank.prolong (rk : Rank) (n : ℕ → ℕ) (i : ℕ) (x : ℕ → ℝ) : Vec ℝ := ⟨rk.lsize i, fun r => ∑ c ∈ Finset.range (n i), rk.P i r c * x c⟩

/-- `u[e]`: the dof values of element `e` in the block of geometry `g`. -/
def elem (b : BlockRestriction) (E : ℕ → ℝ) (g e : ℕ) : ℕ → ℝ := fun s => if s < perElem b g then E (off b g + e * perElem b g + s) else 0

/-- `G_trial_[type][i].Gather`, read by element. -/
def gathered (rk : Rank) (boundary : Bool) (i : ℕ) (x : Vec ℝ) : Option (ℕ → ℕ → ℕ → ℝ) :=
  (((rk.space i).get boundary).gather x fun _ => 0).map (elem ((rk.space i).get boundary))

/-- `r[p] += v` -/
def addAt (r : Vec ℝ) (p : ℕ) (v : ℝ) : Option (Vec ℝ) := do
  let y ← r.get? p
  r.set? p (y + v)

/-- A loop over the elements of a domain adding one number per element to the block of a geometry. -/
def elementLoop (els : List ℕ) (f : ℕ → ℕ → Option ℝ) (r : Vec ℝ) : Option (Vec ℝ) :=
  els.zipIdx.foldlM (fun r p => do let v ← f p.2 p.1; addAt r p.1 v) r

/-- `output_E = 0.0`; blocks as large as the mesh (constructor, 117-133). -/
def zeroOutput (rk : Rank) (boundary : Bool) : ℕ → Vec ℝ := fun g => ⟨rk.count boundary g, fun _ => 0⟩

/-- The kernels of an integral, one geometry after the other. -/
def kernels (geoms : List ℕ) (els : ℕ → List ℕ) (f : ℕ → ℕ → ℕ → Option ℝ) (out : ℕ → Vec ℝ) : Option (ℕ → Vec ℝ) :=
  geoms.foldlM (fun out g => (elementLoop (els g) (f g) (out g)).map fun r => Function.update out g r) out

/-- `QoIElementRestriction::ScatterAdd`: `output[0] += input.Sum()`. -/
def scatterAdd (out : ℕ → Vec ℝ) (y : ℝ) : ℝ :=
  y + ∑ g ∈ Finset.range numGeometries, ∑ e ∈ Finset.range (out g).size, (out g).val e

/-- `Integral::Mult`: output vector and stored derivatives. -/
def mult (rk : Rank) (t : Tm) (wrt : Option ℕ) (x : ℕ → Vec ℝ) (p : Integral Tm D × Buffer D) : Option ((ℕ → Vec ℝ) × Buffer D) := do
  let I := p.1
  let Es ← I.active.mapM fun i => gathered rk I.boundary i (x i)
  let out ← kernels I.geoms I.elements (fun g k e => some (I.value g k t (Es.map fun E => E g e))) (zeroOutput rk I.boundary)
  let buf : Buffer D := match wrt.bind I.index with
    | none => p.2
    | some j => fun j' g k =>
      if j' = j ∧ g ∈ I.geoms then match (I.elements g)[k]? with
        | some e => some (I.derivative j g k t (Es.map fun E => E g e))
        | none => p.2 j' g k
      else p.2 j' g k
  return (out, buf)

/-- The loop of `operator()` on one processor: `output_L_[0]` and the integrals with their new buffers. -/
def evaluateLocal (n : ℕ → ℕ) (wrt : Option ℕ) (t : Tm) (args : ℕ → ℕ → ℝ) (l : Local Tm D) : Option (ℝ × Local Tm D) := do
  let x := fun i => l.rank.prolong n i (args i)
  let r ← l.integrals.foldlM (fun (s : ℝ × List (Integral Tm D × Buffer D)) p => do
    let (out, buf) ← mult l.rank t wrt x p
    return (scatterAdd out s.1, s.2 ++ [(p.1, buf)])) (0, [])
  return (r.1, ⟨l.rank, r.2⟩)

/-- `operator()`; `MPI_Allreduce` sums over the processors. -/
def evaluate (n : ℕ → ℕ) (wrt : Option ℕ) (t : Tm) (args : ℕ → ℕ → ℝ) (m : Mem Tm D) : Option (Mem Tm D) := do
  let rs ← m.locals.mapM (evaluateLocal n wrt t args)
  return ⟨rs.map Prod.snd, (rs.map Prod.fst).sum⟩

/-- `Integral::GradientMult`. -/
def gradientMult (rk : Rank) (which : ℕ) (E : ℕ → ℕ → ℕ → ℝ) (p : Integral Tm D × Buffer D) : Option (ℕ → Vec ℝ) :=
  match p.1.index which with
  | none => some (zeroOutput rk p.1.boundary)
  | some j => kernels p.1.geoms p.1.elements (fun g k e => (p.2 j g k).map fun d => p.1.jvp j g d (E g e)) (zeroOutput rk p.1.boundary)

/-- The loop of `ActionOfGradient` on one processor. -/
def actionLocal (n : ℕ → ℕ) (which : ℕ) (dx : ℕ → ℝ) (l : Local Tm D) : Option ℝ :=
  l.integrals.foldlM (fun s p => do
    let E ← gathered l.rank p.1.boundary which (l.rank.prolong n which dx)
    let out ← gradientMult l.rank which E p
    return scatterAdd out s) 0

/-- `ActionOfGradient`: the result is left in `output_T_[0]` and returned. -/
def action (n : ℕ → ℕ) (which : ℕ) (dx : ℕ → ℝ) (m : Mem Tm D) : Option (Mem Tm D × ℝ) := do
  let rs ← m.locals.mapM (actionLocal n which dx)
  return (⟨m.locals, rs.sum⟩, rs.sum)

/-- Element rows of one domain type: for every geometry in the map, one row per element. -/
abbrev KMap := ℕ → Option (ℕ → ℕ → ℝ)

/-- One kernel of `ComputeElementGradients`: `K_e[geometry]` and, for every element of the domain, `dK(elements[e], 0, s) += row s`. -/
def addRows (size : ℕ) (els : List ℕ) (row : ℕ → Option (ℕ → ℝ)) (K : ℕ → ℕ → ℝ) : Option (ℕ → ℕ → ℝ) :=
  els.zipIdx.foldlM (fun K p => do
    let v ← row p.2
    if p.1 < size then some (fun e s => if e = p.1 then K e s + v s else K e s) else none) K

/-- One round of the first loop of `assemble` (430-446). -/
def rowsStep (rk : Rank) (which : ℕ) (ks : Bool → KMap) (p : Integral Tm D × Buffer D) : Option (Bool → KMap) := do
  let rs := (rk.space which).get p.1.boundary
  let k0 := ks p.1.boundary
  let k : KMap := if (List.range numGeometries).all (fun g => (k0 g).isNone) then fun g => (rs g).map fun _ => fun _ _ => 0 else k0
  let k' ← match p.1.index which with
    | none => some k
    | some j => p.1.geoms.foldlM (fun (k : KMap) g => do
        let K ← k g
        let r ← rs g
        let K' ← addRows r.numElements (p.1.elements g) (fun i => (p.2 j g i).map (p.1.row j g)) K
        return Function.update k g (some K')) k
  return fun b => if b = p.1.boundary then k' else ks b

/-- `gradient_L_[col] += sign * elem_matrices(e, 0, j)` over the elements of one geometry (453-467). -/
def scatterRows (r : ElementRestriction) (K : ℕ → ℕ → ℝ) (L : Vec ℝ) : Option (Vec ℝ) :=
  (List.range r.numElements).foldlM (fun L e => (r.elementVDofs e).zipIdx.foldlM (fun L d => addAt L d.1.pos ((d.1.sign : ℝ) * K e d.2)) L) L

/-- The rows of one domain type and geometry, if the map has any. -/
def scatterGeom (rk : Rank) (which : ℕ) (ks : Bool → KMap) (b : Bool) (L : Vec ℝ) (g : ℕ) : Option (Vec ℝ) :=
  match ks b g with
  | none => some L
  | some K => ((rk.space which).get b g).bind fun r => scatterRows r K L

/-- The second loop of `assemble`: both domain types, all geometries of the map. -/
def scatterAll (rk : Rank) (which : ℕ) (ks : Bool → KMap) (L : Vec ℝ) : Option (Vec ℝ) :=
  [false, true].foldlM (fun L b => (List.range numGeometries).foldlM (scatterGeom rk which ks b) L) L

/-- `gradient_L_` on one processor. -/
def assembleLocal (which : ℕ) (l : Local Tm D) : Option (Vec ℝ) := do
  let ks ← l.integrals.foldlM (rowsStep l.rank which) fun _ _ => none
  scatterAll l.rank which ks ⟨l.rank.lsize which, fun _ => 0⟩

/-- `assemble`: `P_trial_->MultTranspose` adds the local vectors of all processors. -/
def assemble (which : ℕ) (m : Mem Tm D) : Option (ℕ → ℝ) := do
  let gs ← m.locals.mapM fun l => (assembleLocal which l).map fun L => (l.rank, L)
  return fun c => (gs.map fun p => ∑ r ∈ Finset.range p.2.size, p.1.P which r c * p.2.val r).sum

/-- `AddDomainIntegral`, `AddBoundaryIntegral`: nothing happens on a processor without elements (boundary elements). -/
def addIntegral (I : ℕ → Integral Tm D) (m : Mem Tm D) : Mem Tm D :=
  { m with locals := m.locals.zipIdx.map fun p =>
      if ∀ g < numGeometries, p.1.rank.count (I p.2).boundary g = 0 then p.1
      else ⟨p.1.rank, p.1.integrals ++ [(I p.2, fun _ _ _ => none)]⟩ }

/-- What a user can do with the object. -/
inductive Call (Tm D : Type)
  | evaluate (wrt : Option ℕ) (t : Tm) (args : ℕ → ℕ → ℝ)
  | action (which : ℕ) (dx : ℕ → ℝ)
  | assemble (which : ℕ)
  | addIntegral (I : ℕ → Integral Tm D)

/-- One call. -/
def call (n : ℕ → ℕ) (m : Mem Tm D) : Call Tm D → Option (Mem Tm D)
  | .evaluate wrt t args => evaluate n wrt t args m
  | .action which dx => (action n which dx m).map Prod.fst
  | .assemble which => (assemble which m).map fun _ => m
  | .addIntegral I => some (addIntegral I m)

/-- A sequence of calls. -/
def run (n : ℕ → ℕ) (m : Mem Tm D) (cs : List (Call Tm D)) : Option (Mem Tm D) := cs.foldlM (call n) m

end Serac.QoI
