import Mathlib.Data.Multiset.AddSub
import Mathlib.Control.Monad.Basic
/-!
# The matrices that tangents with contact allocate

`ContactData::mergedJacobian` and `jacobianFunction` (`src/serac/physics/contact/contact_data.cpp` 106-227, 256-273) and the gradients of
`SolidMechanicsContact::buildQuasistaticOperator` (`src/serac/physics/solid_mechanics_contact.hpp` 128-185), as operations on a heap of matrices.

What the matrices contain is in `Contact.lean`; here a matrix is only an address.  A heap is the collection of matrices that exist; to free or use one that does not exist is
undefined and ends the run (`none`).  Tracked are the `mfem::HypreParMatrix` objects; block operators are held in unique pointers throughout and own no blocks when they are
destroyed.  `mfem::BlockOperator::SetBlock` deletes the block that it replaces in some versions of mfem and does not in others: a parameter.
-/

namespace Serac.Memory

structure Heap where
  live : Multiset ℕ
  next : ℕ

/-- Programs on the heap; `none` is undefined behaviour. -/
abbrev M (α : Type) := Heap → Option (α × Heap)

def ret {α : Type} (a : α) : M α := fun h => some (a, h)

def andThen {α β : Type} (m : M α) (f : α → M β) : M β := fun h => (m h).bind fun r => f r.1 r.2

def undefined {α : Type} : M α := fun _ => none

/-- `new mfem::HypreParMatrix`, also by functions that return a new matrix. -/
def alloc : M ℕ := fun h => some (h.next, ⟨h.next ::ₘ h.live, h.next + 1⟩)

/-- `delete`. -/
def free (p : ℕ) : M Unit := fun h => if p ∈ h.live then some ((), { h with live := h.live.erase p }) else none

/-- Any use of a matrix through its address. -/
def use (p : ℕ) : M Unit := fun h => if p ∈ h.live then some ((), h) else none

/-- Blocks that Tribol returns for an interaction, and whether it is enforced with multipliers. -/
structure Shape where
  lm : Bool
  has00 : Bool
  has10 : Bool
  has01 : Bool
  has11 : Bool

/-- The blocks of an `mfem::BlockOperator`. -/
structure Blocks where
  b00 : Option ℕ := none
  b10 : Option ℕ := none
  b01 : Option ℕ := none
  b11 : Option ℕ := none

def allocIf (b : Bool) : M (Option ℕ) := if b then andThen alloc fun p => ret (some p) else ret none

def freeIf : Option ℕ → M Unit
  | some p => free p
  | none => ret ()

/-- `ContactInteraction::jacobian` (contact_interaction.cpp:93-96). -/
def jacobian (x : Shape) : M Blocks :=
  andThen (allocIf x.has00) fun a => andThen (allocIf x.has10) fun b => andThen (allocIf x.has01) fun c => andThen (allocIf x.has11) fun d => ret ⟨a, b, c, d⟩

/-- `SetBlock(0, 0, …)` on the operator that owns its blocks. -/
def setBlock (deletes : Bool) (b : Blocks) (p : ℕ) : M Blocks := andThen (if deletes then freeIf b.b00 else ret ()) fun _ => ret { b with b00 := some p }

/-- Contribution of an interaction to the (0,0) block (contact_data.cpp:124-139). -/
def add00 (deletes : Bool) (b : Blocks) : Option ℕ → M Blocks
  | none => ret b
  | some p =>
    match b.b00 with
    | none => setBlock deletes b p
    | some q => andThen (use q) fun _ => andThen (use p) fun _ => andThen alloc fun s => andThen (setBlock deletes b s) fun b => andThen (free p) fun _ => ret b

/-- An entry of `constraint_matrices`: not yet written, null, or a matrix. -/
inductive Entry where
  | junk
  | null
  | ptr (p : ℕ)

/-- Penalty contribution (contact_data.cpp:147-163): the transpose is a temporary, `BTB` is freed unless it becomes the block. -/
def penalty (deletes : Bool) (b : Blocks) (B : ℕ) : M Blocks :=
  andThen (use B) fun _ => andThen alloc fun t => andThen alloc fun btb => andThen (free t) fun _ => andThen (free B) fun _ =>
    match b.b00 with
    | none => setBlock deletes b btb
    | some q => andThen (use q) fun _ => andThen (use btb) fun _ => andThen alloc fun s => andThen (setBlock deletes b s) fun b => andThen (free btb) fun _ => ret b

/-- The second part of the body of the loop (contact_data.cpp:142-176). -/
def constraint (deletes : Bool) (x : Shape) (J b : Blocks) : M (Blocks × Entry) :=
  match J.b10 with
  | none => ret (b, .junk)
  | some B =>
    andThen (use B) fun _ =>
      andThen (if x.lm then ret (b, Entry.ptr B) else andThen (penalty deletes b B) fun b => ret (b, Entry.null)) fun r =>
        match J.b01 with
        | none => undefined
        | some p => andThen (free p) fun _ => andThen (freeIf J.b11) fun _ => ret r

/-- The loop over the interactions (contact_data.cpp:119-177). -/
def mergeLoop (deletes : Bool) : List Shape → Blocks → List Entry → M (Blocks × List Entry)
  | [], b, es => ret (b, es)
  | x :: xs, b, es =>
    andThen (jacobian x) fun J => andThen (add00 deletes b J.b00) fun b => andThen (constraint deletes x J b) fun r => mergeLoop deletes xs r.1 (es ++ [r.2])

/-- `HypreParMatrixFromBlocks` reads every pointer of its array. -/
def readAll : List Entry → M Unit
  | [] => ret ()
  | .junk :: _ => undefined
  | .null :: es => readAll es
  | .ptr p :: es => andThen (use p) fun _ => readAll es

/-- `haveLagrangeMultipliers` (contact_data.cpp:36-39). -/
def haveMultipliers (xs : List Shape) : Bool := xs.any Shape.lm

/-- `mergedJacobian` (contact_data.cpp:106-227). -/
def mergedJacobian (deletes : Bool) (xs : List Shape) : M Blocks :=
  andThen (mergeLoop deletes xs {} []) fun r =>
    if haveMultipliers xs then
      andThen (readAll r.2) fun _ => andThen alloc fun p10 => andThen alloc fun p01 => andThen alloc fun p11 =>
        ret { r.1 with b10 := some p10, b01 := some p01, b11 := some p11 }
    else ret r.1

/-- `jacobianFunction` (contact_data.cpp:256-273). -/
def jacobianFunction (deletes : Bool) (xs : List Shape) (orig : ℕ) : M Blocks :=
  andThen (mergedJacobian deletes xs) fun b =>
    match b.b00 with
    | none => setBlock deletes b orig
    | some q => andThen (use orig) fun _ => andThen (use q) fun _ => andThen alloc fun s => setBlock deletes b s

/-- The unique pointers of the module: `J_`, `J_12_`, `J_21_`, `J_22_`, `J_e_`, `J_e_21_`. -/
structure Members where
  J : Option ℕ := none
  J12 : Option ℕ := none
  J21 : Option ℕ := none
  J22 : Option ℕ := none
  Je : Option ℕ := none
  Je21 : Option ℕ := none

/-- A unique pointer takes over a block: `GetBlock` fails for a null block. -/
def take (old new : Option ℕ) : M (Option ℕ) :=
  match new with
  | none => undefined
  | some p => andThen (freeIf old) fun _ => ret (some p)

/-- One evaluation of the gradient (solid_mechanics_contact.hpp:134-166, 172-185). -/
def gradient (deletes : Bool) (xs : List Shape) (s : Members) : M Members :=
  -- J_ = assemble(drdu), then J_.release()
  andThen alloc fun orig => andThen (freeIf s.J) fun _ => andThen (jacobianFunction deletes xs orig) fun b =>
    andThen (take none b.b00) fun J =>
      if haveMultipliers xs then
        andThen (take s.J12 b.b01) fun J12 => andThen (take s.J21 b.b10) fun J21 => andThen (take s.J22 b.b11) fun J22 =>
          andThen (J.elim undefined use) fun _ => andThen alloc fun Je => andThen (freeIf s.Je) fun _ =>
            andThen (J21.elim undefined use) fun _ => andThen alloc fun Je21 => andThen (freeIf s.Je21) fun _ => andThen (J12.elim undefined use) fun _ =>
              ret ⟨J, J12, J21, J22, some Je, some Je21⟩
      else
        andThen (J.elim undefined use) fun _ => andThen alloc fun Je => andThen (freeIf s.Je) fun _ => ret { s with J := J, Je := some Je }

/-- Evaluations in a row. -/
def gradients (deletes : Bool) : List (List Shape) → Members → M Members
  | [], s => ret s
  | xs :: xss, s => andThen (gradient deletes xs s) fun s => gradients deletes xss s

/-- Destruction of the module. -/
def destroy (s : Members) : M Unit :=
  andThen (freeIf s.J) fun _ => andThen (freeIf s.J12) fun _ => andThen (freeIf s.J21) fun _ => andThen (freeIf s.J22) fun _ => andThen (freeIf s.Je) fun _ => freeIf s.Je21

end Serac.Memory
