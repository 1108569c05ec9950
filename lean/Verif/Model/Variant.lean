import Mathlib.Data.List.Basic
/-!
# The two-element variant

`variant_storage`, `is_variant_assignable`, `variant`, `get`, `visit`, `holds_alternative`, `get_if` (`src/serac/infrastructure/variant.hpp:33-110,
115-143, 151-158, 206-325, 337-418`) and `MaybeOwningPointer`, `retrieve` (:438-452).

The two member types are described by their values (`α`, `β`) and by the traits the code depends on.  The union holds at most one living object
(`Cell`); every object has a number, and the world records how many were created and which were destroyed.  Reading or assigning an object that
is not alive is undefined behaviour, outcome `none`, with the exception the language makes: assigning to a union member of a type with a
trivial assignment operator begins its lifetime ([class.union]).  Destroying an object that is not alive is undefined too.
-/

namespace Serac.Variant

/-- What the templates ask about a type. -/
structure Traits where
  trivialDtor : Bool
  trivialAssign : Bool

/-- The living member of the union, if any, with the number of the object. -/
inductive Cell (α β : Type) where
  | empty
  | first (id : ℕ) (a : α)
  | second (id : ℕ) (b : β)

/-- `variant_storage` (:34-42, 116-131); `index = false` is `0`. -/
structure Storage (α β : Type) where
  index : Bool
  cell : Cell α β

/-- Objects created so far and the objects destroyed, latest first. -/
structure World where
  created : ℕ
  destroyed : List ℕ

/-- The instance `variant<T0, T1>`: traits and the default value of `T0`. -/
structure Types (α β : Type) where
  t0 : Traits
  t1 : Traits
  default0 : α

/-- Which of the two specialisations of `variant_storage` is used (:115-117). -/
def Types.trivial {α β : Type} (T : Types α β) : Bool := T.t0.trivialDtor && T.t1.trivialDtor

variable {α β : Type}

/-- Which member a value of the argument type goes to (:240-248, 275-290): the `if constexpr` chain, from `is_same` and `is_assignable`. -/
def choose (same0 assign0 same1 assign1 : Bool) : Option Bool :=
  if same0 || assign0 then some false else if same1 || assign1 then some true else none

/-- `variant_storage()` (:104, 137): `t0_{}`. -/
def defaultCtor (T : Types α β) (w : World) : Storage α β × World :=
  (⟨false, .first w.created T.default0⟩, { w with created := w.created + 1 })

/-- An argument for one of the two members. -/
inductive Arg (α β : Type) where
  | first (a : α)
  | second (b : β)

def Arg.which : Arg α β → Bool
  | .first _ => false
  | .second _ => true

/-- `variant(T&&)` (:237-249): the storage is default constructed first, then `new` places the value over it. -/
def valueCtor (T : Types α β) (x : Arg α β) (w : World) : Storage α β × World :=
  let r := defaultCtor T w
  match x with
  | .first a => (⟨false, .first r.2.created a⟩, { r.2 with created := r.2.created + 1 })
  | .second b => (⟨true, .second r.2.created b⟩, { r.2 with created := r.2.created + 1 })

/-- The member selected by the index, if it is alive. -/
def active (s : Storage α β) : Option (ℕ × Arg α β) :=
  match s.index, s.cell with
  | false, .first i a => some (i, .first a)
  | true, .second i b => some (i, .second b)
  | _, _ => none

/-- Copy construction (:49-61; implicit for the trivial specialisation): a new object from the active member of `other`. -/
def copyCtor (other : Storage α β) (w : World) : Option (Storage α β × World) :=
  (active other).map fun r => match r.2 with
    | .first a => (⟨false, .first w.created a⟩, { w with created := w.created + 1 })
    | .second b => (⟨true, .second w.created b⟩, { w with created := w.created + 1 })

/-- `clear` (:86-98, 142): destroys the active member, or does nothing in the trivial specialisation. -/
def clear (T : Types α β) (s : Storage α β) (w : World) : Option (Storage α β × World) :=
  if T.trivial then some (s, w)
  else (active s).map fun r => ({ s with cell := .empty }, { w with destroyed := r.1 :: w.destroyed })

/-- Assignment to one member (:279, 285). -/
def assignMember (T : Types α β) (x : Arg α β) (s : Storage α β) (w : World) : Option (Storage α β × World) :=
  match x, s.cell with
  | .first a, .first i _ => some ({ s with cell := .first i a }, w)
  | .second b, .second i _ => some ({ s with cell := .second i b }, w)
  | .first a, _ => if T.t0.trivialAssign then some ({ s with cell := .first w.created a }, { w with created := w.created + 1 }) else none
  | .second b, _ => if T.t1.trivialAssign then some ({ s with cell := .second w.created b }, { w with created := w.created + 1 }) else none

/-- `operator=(T&&)` (:272-293). -/
def assign (T : Types α β) (x : Arg α β) (s : Storage α β) (w : World) : Option (Storage α β × World) :=
  (if s.index ≠ x.which then clear T s w else some (s, w)).bind fun r =>
  (assignMember T x r.1 r.2).map fun r => ({ r.1 with index := x.which }, r.2)

/-- A sequence of assignments. -/
def assigns (T : Types α β) : List (Arg α β) → Storage α β → World → Option (Storage α β × World)
  | [], s, w => some (s, w)
  | x :: xs, s, w => (assign T x s w).bind fun r => assigns T xs r.1 r.2

/-- `~variant_storage` (:109; nothing to do in the trivial specialisation). -/
def destroy (T : Types α β) (s : Storage α β) (w : World) : Option World := (clear T s w).map Prod.snd

/-- `get<0>`, `get<1>` (:303-325): undefined unless that member is alive. -/
def get0 (s : Storage α β) : Option α := match s.cell with | .first _ a => some a | _ => none
def get1 (s : Storage α β) : Option β := match s.cell with | .second _ b => some b | _ => none

/-- `holds_alternative` (:380-389), by alternative. -/
def holds (which : Bool) (s : Storage α β) : Bool := s.index == which

/-- `get_if` (:397-418): a pointer to the member when its index is active; the outer option is undefinedness, the inner the null pointer. -/
def getIf0 (s : Storage α β) : Option (Option α) := if s.index = false then (get0 s).map some else some none
def getIf1 (s : Storage α β) : Option (Option β) := if s.index = true then (get1 s).map some else some none

/-- `visit` (:364-372). -/
def visit {γ : Type} (f : α → γ) (g : β → γ) (s : Storage α β) : Option γ := if s.index = false then (get0 s).map f else (get1 s).map g

/-- `MaybeOwningPointer<T>` (:436): a raw pointer (trivial) or a `unique_ptr` (neither trivial).  Pointers are `Option Addr`, null is `none`. -/
def maybeOwning (Addr : Type) : Types (Option Addr) (Option Addr) := ⟨⟨true, true⟩, ⟨false, false⟩, none⟩

/-- `GeneralCoefficient` (finite_element_vector.hpp:29): two `shared_ptr`s. -/
def generalCoefficient (S V : Type) : Types (Option S) (Option V) := ⟨⟨false, false⟩, ⟨false, false⟩, none⟩

/-- `retrieve` (:442-452): the object the active pointer points to; null is undefined. -/
def retrieve {Addr : Type} (s : Storage (Option Addr) (Option Addr)) : Option Addr := (visit id id s).bind id

end Serac.Variant
