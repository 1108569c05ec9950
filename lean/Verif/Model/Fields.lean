import Mathlib.Data.Real.Basic
import Mathlib.Data.Fintype.Sigma
import Mathlib.Data.Fintype.BigOperators
import Mathlib.Data.Int.Init
import Mathlib.Algebra.BigOperators.Group.Finset.Basic
import Mathlib.Order.WithBot
import Mathlib.Data.Finset.Lattice.Fold
/-!
# Fields: `FiniteElementVector`, `FiniteElementState`, `FiniteElementDual`

Model of src/serac/physics/state/finite_element_vector.hpp:50-190 and .cpp (whole file), finite_element_state.hpp:49-224 and .cpp:12-98,
finite_element_dual.hpp:28-140.

A program is a list of operations on variables, each of which is a state or a dual (C++ types are static: `kind`).  An object owns a true
vector, a finite element space (`space_`, a heap object with an identity) and, once asked for, a local view: the grid function of a state,
the linear form of a dual.  A view remembers the space object it was built on.  Moves that steal the space leave a hollow object.  Reading
through a null pointer or through a space object that no longer exists is the outcome `ub`; `SLIC_ERROR` is the outcome `error`.

What mfem derives from a space is data (`Layout`): ranks, the true and local dofs of each rank, the true dof and the sign of each local dof
(conforming meshes: the prolongation has one entry `±1` per row), and the local dof that the restriction reads for each true dof.  The
prolongation, the restriction and their transposes are defined from it.  The layout depends on the space's description only.
-/

namespace Serac.Fields

/-- What `sameFiniteElementSpace` looks at: mesh address, name of the collection, vector dimension, ordering. -/
structure Space where
  mesh : ℕ
  coll : String
  vdim : ℕ
  byVDIM : Bool
deriving DecidableEq

/-- `sameFiniteElementSpace` (finite_element_vector.cpp:19-26). -/
def sameSpace (a b : Space) : Bool := a.mesh == b.mesh && a.coll == b.coll && a.vdim == b.vdim && a.byVDIM == b.byVDIM

/-- What mfem tabulates for a space on all ranks. -/
structure Layout where
  ranks : ℕ
  /-- `GetTrueVSize` of each rank. -/
  size : Fin ranks → ℕ
  /-- `GetVSize` of each rank. -/
  lsize : Fin ranks → ℕ
  tdof : (Σ r, Fin (lsize r)) → (Σ r, Fin (size r))
  sign : (Σ r, Fin (lsize r)) → ℝ
  own : (Σ r, Fin (size r)) → (Σ r, Fin (lsize r))

/-- The true dofs of all ranks. -/
abbrev Layout.True (K : Layout) : Type := Σ r, Fin (K.size r)

/-- The local dofs of all ranks. -/
abbrev Layout.Loc (K : Layout) : Type := Σ r, Fin (K.lsize r)

namespace Layout
variable (K : Layout)

/-- The prolongation: `ParGridFunction::SetFromTrueDofs`. -/
def prolong (v : K.True → ℝ) : K.Loc → ℝ := fun l => K.sign l * v (K.tdof l)

/-- The restriction: `ParGridFunction::GetTrueDofs`. -/
def restrict (w : K.Loc → ℝ) : K.True → ℝ := fun t => w (K.own t)

/-- Transpose of the prolongation: `ParLinearForm::ParallelAssemble`. -/
def assemble (w : K.Loc → ℝ) : K.True → ℝ := fun t => ∑ l, if K.tdof l = t then K.sign l * w l else 0

/-- Transpose of the restriction: `GetRestrictionMatrix()->MultTranspose` (finite_element_dual.hpp:96-99). -/
def spread (v : K.True → ℝ) : K.Loc → ℝ := fun l => ∑ t, if K.own t = l then v t else 0

end Layout

/-- mfem's tables for every space. -/
abbrev Tables := Space → Layout

/-- A true vector with the space it belongs to. -/
abbrev TVec (M : Tables) : Type := (s : Space) × ((M s).True → ℝ)

/-- A local vector with the space it belongs to. -/
abbrev LVec (M : Tables) : Type := (s : Space) × ((M s).Loc → ℝ)

inductive Kind
  | state
  | dual
deriving DecidableEq

/-- `fillGridFunction` (finite_element_state.hpp:126) and `fillLinearForm` (finite_element_dual.hpp:96-99). -/
def fill (K : Layout) (k : Kind) (v : K.True → ℝ) : K.Loc → ℝ :=
  match k with
  | .state => K.prolong v
  | .dual => K.spread v

/-- `setFromGridFunction` (finite_element_state.hpp:140) and `setFromLinearForm` (finite_element_dual.hpp:113-116). -/
def setFrom (K : Layout) (k : Kind) (w : K.Loc → ℝ) : K.True → ℝ :=
  match k with
  | .state => K.restrict w
  | .dual => K.assemble w

/-- One state or dual. -/
structure Obj (M : Tables) where
  name : String
  /-- The true vector; `none` once it was stolen. -/
  val : Option (TVec M)
  /-- The space object owned; `none` once it was stolen. -/
  space : Option ℕ
  /-- `grid_func_` or `linear_form_`: the space object it was built on and its entries. -/
  view : Option (ℕ × LVec M)

/-- The memory: the objects and which space objects exist. -/
structure Mem (M : Tables) where
  objs : ℕ → Option (Obj M)
  live : ℕ → Bool
  next : ℕ

inductive Res (α : Type)
  | ok (a : α)
  | error
  | ub

/-- A vector given from outside: a block of a given size on every rank. -/
structure Raw where
  size : ℕ → ℕ
  val : ℕ → ℕ → ℝ

/-- The blocks have the sizes of the true vector. -/
def Raw.fits (K : Layout) (w : Raw) : Prop := ∀ r : Fin K.ranks, w.size r = K.size r

/-- The entries of the blocks. -/
def Raw.entries (K : Layout) (w : Raw) : K.True → ℝ := fun t => w.val t.1 t.2

inductive Op (M : Tables)
  /-- `T x(space, name)` -/
  | make (x : ℕ) (s : Space) (name : String)
  /-- `T x(y)` -/
  | copy (x y : ℕ)
  /-- `T x(std::move(y))` -/
  | move (x y : ℕ)
  /-- `x = y` -/
  | assign (x y : ℕ)
  /-- `x = std::move(y)` -/
  | moveAssign (x y : ℕ)
  /-- `x = c` with a number -/
  | const (x : ℕ) (c : ℝ)
  /-- `x = w` with a `HypreParVector` -/
  | hypre (x : ℕ) (w : Raw)
  /-- `x = w` with an `mfem::Vector` -/
  | vector (x : ℕ) (w : Raw)
  /-- `x.gridFunction()` or `x.linearForm()` -/
  | look (x : ℕ)
  /-- `auto& g = x.gridFunction(); g = f(g); x.setFromGridFunction(g);` (all `project` functions have this form), or the same with
  `linearForm` and `setFromLinearForm` -/
  | edit (x : ℕ) (f : (s : Space) → ((M s).Loc → ℝ) → ((M s).Loc → ℝ))
  /-- end of life -/
  | drop (x : ℕ)

/-- Write one variable. -/
def put {α : Type} (g : ℕ → Option α) (x : ℕ) (o : Option α) : ℕ → Option α := fun j => if j = x then o else g j

namespace Mem
variable {M : Tables} (m : Mem M)

/-- Store an object in a variable. -/
def set (x : ℕ) (o : Obj M) : Mem M := { m with objs := put m.objs x (some o) }

/-- Allocate a space object. -/
def alloc : Mem M := { m with live := fun i => if i = m.next then true else m.live i, next := m.next + 1 }

/-- Destroy a space object. -/
def free (i : Option ℕ) : Mem M := { m with live := fun j => if i = some j then false else m.live j }

/-- The start of a program. -/
def empty : Mem M := { objs := fun _ => none, live := fun _ => false, next := 0 }

end Mem

/-- The check of the constructor (finite_element_vector.cpp:34-36); `ord`: `serac::ordering` is `byVDIM`. -/
def admissible (ord : Bool) (s : Space) : Bool := !(decide (1 < s.vdim) && decide (s.byVDIM ≠ ord))

/-- The constructor from a space (finite_element_vector.cpp:28-48) followed by writing `v`; both constructors that copy use it
(finite_element_vector.hpp:89-92). -/
def construct {M : Tables} (ord : Bool) (m : Mem M) (x : ℕ) (v : TVec M) (name : String) (view : Option (ℕ × LVec M)) : Res (Mem M) :=
  if admissible ord v.1 then .ok (m.alloc.set x { name := name, val := some v, space := some m.next, view := view }) else .error

/-- The view a dual gets when it copies the view of another (finite_element_dual.hpp:41-44, 77-80): built on `i`, entries of the other. -/
def copyView {M : Tables} (i : ℕ) (mine other : Option (ℕ × LVec M)) : Option (ℕ × LVec M) :=
  match other with
  | none => mine
  | some w => some ((match mine with | some z => z.1 | none => i), w.2)

/-- The view of the target after a copy assignment: untouched for a state (finite_element_state.hpp:73-77). -/
def assignedView {M : Tables} (k : Kind) (i : ℕ) (mine other : Option (ℕ × LVec M)) : Option (ℕ × LVec M) :=
  match k with
  | .state => mine
  | .dual => copyView i mine other

/-- `FiniteElementVector::operator=(const FiniteElementVector&)` and the copy assignments that call it
(finite_element_vector.cpp:76-87, finite_element_state.hpp:73-77, finite_element_dual.hpp:73-82). -/
def doAssign {M : Tables} (k : Kind) (m : Mem M) (x : ℕ) (a b : Obj M) : Res (Mem M) :=
  match a.val, b.val, a.space, b.space with
  | some va, some vb, some i, some _ =>
    if sameSpace va.1 vb.1 then
      .ok (m.set x { a with val := some vb, view := assignedView k i a.view b.view })
    else .error
  | _, _, _, _ => .ub

/-- `x = w` with sizes compared by the code (finite_element_vector.cpp:60-68) or not (70-74: `Vector::operator=` would reallocate memory that
hypre owns). -/
noncomputable def doWrite {M : Tables} (bad : Res (Mem M)) (m : Mem M) (x : ℕ) (a : Obj M) (w : Raw) : Res (Mem M) :=
  match a.val with
  | some v =>
    open Classical in
    if w.fits (M v.1) then .ok (m.set x { a with val := some ⟨v.1, w.entries (M v.1)⟩ }) else bad
  | none => .ub

/-- The space object a view is built on: the existing view's, else the object's own (finite_element_state.cpp:92-99,
finite_element_dual.hpp:123-130). -/
def viewSpace {M : Tables} (a : Obj M) (i : ℕ) : ℕ := match a.view with | some z => z.1 | none => i

/-- One operation.  Programs that construct a variable twice or use an unknown one do not compile; they are given `ub`. -/
noncomputable def step {M : Tables} (ord : Bool) (kind : ℕ → Kind) (op : Op M) (m : Mem M) : Res (Mem M) :=
  match op with
  | .make x s name =>
    match m.objs x with
    | none => construct ord m x ⟨s, fun _ => 0⟩ name none
    | some _ => .ub
  | .copy x y =>
    match m.objs x, m.objs y with
    | none, some b =>
      match b.val with
      | some v => construct ord m x v b.name (assignedView (kind y) m.next none b.view)
      | none => .ub
    | _, _ => .ub
  | .move x y =>
    match m.objs x, m.objs y with
    | none, some b =>
      match kind y with
      | .state =>
        -- finite_element_state.hpp:66 and finite_element_vector.cpp:50-58: everything but the grid function is taken over
        .ok ((m.set x { b with view := none }).set y { b with name := "", val := none, space := none })
      | .dual =>
        -- finite_element_dual.hpp:52-55: `FiniteElementVector(rhs)` copies, the linear form is taken over
        match b.val with
        | some v =>
          match construct ord m x v b.name b.view with
          | .ok m' => .ok (m'.set y { b with view := none })
          | r => r
        | none => .ub
    | _, _ => .ub
  | .assign x y =>
    match m.objs x, m.objs y with
    | some a, some b => doAssign (kind x) m x a b
    | _, _ => .ub
  | .moveAssign x y =>
    match m.objs x, m.objs y with
    | some a, some b =>
      match kind x with
      | .state => doAssign .state m x a b
      | .dual =>
        -- finite_element_dual.hpp:63-67
        if x = y then .ok m else .ok ((m.set x { a with view := b.view }).set y { b with view := none })
    | _, _ => .ub
  | .const x c =>
    match m.objs x with
    | some a =>
      match a.val with
      | some v => .ok (m.set x { a with val := some ⟨v.1, fun _ => c⟩ })
      | none => .ub
    | none => .ub
  | .hypre x w =>
    match m.objs x with
    | some a => doWrite .error m x a w
    | none => .ub
  | .vector x w =>
    match m.objs x with
    | some a => doWrite .ub m x a w
    | none => .ub
  | .look x =>
    match m.objs x with
    | some a =>
      match a.val, a.space with
      | some v, some i => .ok (m.set x { a with view := some (viewSpace a i, ⟨v.1, fill (M v.1) (kind x) v.2⟩) })
      | _, _ => .ub
    | none => .ub
  | .edit x f =>
    match m.objs x with
    | some a =>
      match a.val, a.space with
      | some v, some i =>
        if m.live (viewSpace a i) then
          .ok (m.set x { a with
            val := some ⟨v.1, setFrom (M v.1) (kind x) (f v.1 (fill (M v.1) (kind x) v.2))⟩
            view := some (viewSpace a i, ⟨v.1, f v.1 (fill (M v.1) (kind x) v.2)⟩) })
        else .ub
      | _, _ => .ub
    | none => .ub
  | .drop x =>
    match m.objs x with
    | some a => .ok { (m.free a.space) with objs := put m.objs x none }
    | none => .ub

/-- A program. -/
noncomputable def run {M : Tables} (ord : Bool) (kind : ℕ → Kind) : List (Op M) → Mem M → Res (Mem M)
  | [], m => .ok m
  | op :: ops, m =>
    match step ord kind op m with
    | .ok m' => run ord kind ops m'
    | .error => .error
    | .ub => .ub

/-! ### Reductions (finite_element_vector.cpp:110-160) -/

namespace Layout
variable (K : Layout)

/-- `fe_vector.Sum()` on one rank. -/
def localSum (v : K.True → ℝ) (r : Fin K.ranks) : ℝ := ∑ i, v ⟨r, i⟩

/-- `MPI_Allreduce` of the sizes with `MPI_INT`: the sum in 32 bits. -/
def globalSize : ℤ := ((∑ r, (K.size r : ℤ)) : ℤ).bmod (2 ^ 32)

/-- `avg` (110-119). -/
noncomputable def avg (v : K.True → ℝ) : ℝ := (∑ r, K.localSum v r) / (K.globalSize : ℝ)

/-- `fe_vector.Max()` on one rank: minus infinity if the rank has no dofs. -/
noncomputable def localMax (v : K.True → ℝ) (r : Fin K.ranks) : WithBot ℝ := Finset.univ.sup fun i => ((v ⟨r, i⟩ : ℝ) : WithBot ℝ)

/-- `max` (121-127). -/
noncomputable def max (v : K.True → ℝ) : WithBot ℝ := Finset.univ.sup fun r => K.localMax v r

/-- `fe_vector.Min()` on one rank: plus infinity if the rank has no dofs. -/
noncomputable def localMin (v : K.True → ℝ) (r : Fin K.ranks) : WithTop ℝ := Finset.univ.inf fun i => ((v ⟨r, i⟩ : ℝ) : WithTop ℝ)

/-- `min` (129-135). -/
noncomputable def min (v : K.True → ℝ) : WithTop ℝ := Finset.univ.inf fun r => K.localMin v r

/-- `mfem::InnerProduct` of two local blocks. -/
def localDot (u v : K.True → ℝ) (r : Fin K.ranks) : ℝ := ∑ i, u ⟨r, i⟩ * v ⟨r, i⟩

/-- The reduction of `innerProduct` (150-153). -/
def dot (u v : K.True → ℝ) : ℝ := ∑ r, K.localDot u v r

end Layout

/-- `innerProduct` (137-154).  Vectors on the same mesh have the same communicator; the comparison of sizes and communicators comes first,
all three failures are the same outcome. -/
def innerProduct {M : Tables} (a b : TVec M) : Res ℝ :=
  if sameSpace a.1 b.1 then
    if h : a.1 = b.1 then .ok ((M a.1).dot a.2 (h ▸ b.2)) else .ub
  else .error

/-- What `ProjectCoefficient(coef, dofs)` does to a grid function: the listed local dofs take the value of the coefficient there
(finite_element_state.cpp:12-30, 76-90). -/
def project (K : Layout) (S : K.Loc → Prop) [DecidablePred S] (g : K.Loc → ℝ) (w : K.Loc → ℝ) : K.Loc → ℝ :=
  fun l => if S l then g l else w l

end Serac.Fields
