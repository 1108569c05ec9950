import Verif.Model.Fields
import Verif.Model.Driver
import Mathlib.Algebra.Order.Floor.Ring
import Mathlib.Algebra.Order.Archimedean.Real.Basic
/-!
# The summary of a run

`/repo/src/serac/physics/base_physics.cpp` 217-266 (`initializeSummary`), 268-326 (`saveSummary`), `/repo/src/drivers/serac.cpp` 389 and 391-423 (the calls of the driver).

The data store of one rank is modelled by the group `serac_summary`, which may be missing.  A group of sidre has children with distinct names; asking for a second one with
the same name, or for one that is not there, gives a null pointer, whose use is the outcome `ub`.  `SLIC_ERROR` is the outcome `error`.  Names of states are taken to have no
slash (sidre would read a path).  The initial capacity of the arrays has no effect other than that its computation must make sense.  `norm` (an integral computed by mfem) is a
parameter; `avg`, `max` and `min` are those of `Verif.Model.Fields`.  Not modelled: writing the file (`outputSummary`).
-/

noncomputable section
namespace Serac.Summary
open Serac.Fields

/-- The six numbers computed for a state in one call of `saveSummary` (291-299). -/
structure Stats where
  l1 : ℝ
  l2 : ℝ
  linf : ℝ
  avg : ℝ
  max : WithBot ℝ
  min : WithTop ℝ

/-- The six arrays of a state (257-262). -/
structure Curves where
  l1norms : List ℝ
  l2norms : List ℝ
  linfnorms : List ℝ
  avgs : List ℝ
  mins : List (WithTop ℝ)
  maxs : List (WithBot ℝ)

/-- The group `serac_summary` (218-230). -/
structure Store where
  mpiRankCount : ℕ
  t : List ℝ
  groups : List (String × Curves)

/-- The loop over the states in `initializeSummary` (254-263): `createGroup` refuses a name that the curves group has already, the array `t` included. -/
def createGroups : List String → List (String × Curves) → Res (List (String × Curves))
  | [], g => .ok g
  | n :: ns, g => if n = "t" ∨ n ∈ g.map Prod.fst then .ub else createGroups ns (g ++ [(n, ⟨[], [], [], [], [], []⟩)])

/-- `initializeSummary` on one rank.  `array_size` is the conversion of a `double` to a 64 bit integer, which must be in range. -/
def initSummary (count rank : ℕ) (names : List String) (tFinal dt : ℝ) (root : Option Store) : Res (Option Store) :=
  if rank ≠ 0 then .ok root
  else match root with
    | some _ => .error
    | none =>
      if dt = 0 ∨ ¬ (-(2 : ℤ) ^ 63 ≤ ⌈tFinal / dt⌉ ∧ ⌈tFinal / dt⌉ < (2 : ℤ) ^ 63) then .ub
      else match createGroups names [] with
        | .ok g => .ok (some ⟨count, [], g⟩)
        | .error => .error
        | .ub => .ub

/-- The six `push_back`s (303-324). -/
def Curves.push (c : Curves) (s : Stats) : Curves :=
  { l1norms := c.l1norms ++ [s.l1], l2norms := c.l2norms ++ [s.l2], linfnorms := c.linfnorms ++ [s.linf],
    avgs := c.avgs ++ [s.avg], maxs := c.maxs ++ [s.max], mins := c.mins ++ [s.min] }

/-- Push to the group of the given name. -/
def pushTo (n : String) (s : Stats) : List (String × Curves) → Res (List (String × Curves))
  | [] => .ub
  | g :: gs => if g.1 = n then .ok ((g.1, g.2.push s) :: gs) else match pushTo n s gs with
    | .ok gs' => .ok (g :: gs')
    | .error => .error
    | .ub => .ub

/-- The loop over the states in `saveSummary` (290-325). -/
def pushAll : List (String × Stats) → List (String × Curves) → Res (List (String × Curves))
  | [], g => .ok g
  | s :: ss, g => match pushTo s.1 s.2 g with
    | .ok g' => pushAll ss g'
    | .error => .error
    | .ub => .ub

/-- `saveSummary` on one rank. -/
def saveSummary (rank : ℕ) (states : List (String × Stats)) (t : ℝ) (root : Option Store) : Res (Option Store) :=
  if rank ≠ 0 then .ok root
  else match root with
    | none => .error
    | some r => match pushAll states r.groups with
      | .ok g => .ok (some { r with t := r.t ++ [t], groups := g })
      | .error => .error
      | .ub => .ub

/-- A state: its name, how it is distributed, and its entries. -/
structure Field where
  name : String
  K : Layout
  v : K.True → ℝ

/-- What `saveSummary` computes for a state; the norms with exponents 1, 2 and infinity. -/
def Field.stats (norm : Option ℕ → Field → ℝ) (f : Field) : Stats :=
  { l1 := norm (some 1) f, l2 := norm (some 2) f, linf := norm none f, avg := f.K.avg f.v, max := f.K.max f.v, min := f.K.min f.v }

/-- The driver's loop with a physics module: the module's data, and the data store of the rank. -/
structure Run (P : Type) where
  s : Driver.State
  module : P
  root : Option Store

/-- One pass (serac.cpp 393-420): advance, then save with the driver's time. -/
def pass {P : Type} (rnd : ℝ → ℝ) (dt tf : ℝ) (rank : ℕ) (norm : Option ℕ → Field → ℝ) (advance : ℝ → P → P) (states : P → List Field) (r : Run P) : Res (Run P) :=
  let s := Driver.body rnd dt tf r.s
  let m := advance (min dt (rnd (tf - r.s.t))) r.module
  match saveSummary rank ((states m).map fun f => (f.name, f.stats norm)) s.t r.root with
  | .ok root => .ok ⟨s, m, root⟩
  | .error => .error
  | .ub => .ub

open Classical in
/-- The loop; `none`: still running after `fuel` passes. -/
def loop {P : Type} (rnd : ℝ → ℝ) (dt tf : ℝ) (rank : ℕ) (norm : Option ℕ → Field → ℝ) (advance : ℝ → P → P) (states : P → List Field) : ℕ → Run P → Option (Res (Run P))
  | 0, _ => none
  | fuel + 1, r => match pass rnd dt tf rank norm advance states r with
    | .ok r' => if Driver.last rnd dt tf r'.s.t then some (.ok r') else loop rnd dt tf rank norm advance states fuel r'
    | .error => some .error
    | .ub => some .ub

end Serac.Summary
