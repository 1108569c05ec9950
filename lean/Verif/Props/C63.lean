import Verif.Model.Variant
import Mathlib.Tactic.Common
import Mathlib.Data.List.Chain
/-!
# C63: the two-element variant

Spec.  A variant is a tagged union.  `Shows s x` says that every query (`index`, `get`, `holds_alternative`, `get_if`, `visit`) answers as if
the variant were the value `x`.  Objects are numbered in order of creation; a correct variant destroys every object it creates exactly once.

Violations found: assigning a value of the other alternative assigns to an object whose destructor has run, unless its type has a trivial
assignment (`C63_defined`, `C63_switch_wrong`); construction from a value never destroys the default-constructed first member
(`C63_lifetime_partial`); a value of exactly the second type goes to the first member if it converts to it (`C63_choice_wrong`).
-/

namespace Serac.C63
open Serac.Variant

variable {α β : Type}

/-! ## Spec -/

/-- Every query answers as the value `x`. -/
def Shows (s : Storage α β) : Arg α β → Prop
  | .first a => s.index = false ∧ get0 s = some a ∧ holds false s = true ∧ holds true s = false ∧ getIf0 s = some (some a) ∧
      getIf1 s = some none ∧ ∀ (γ : Type) (f : α → γ) (g : β → γ), visit f g s = some (f a)
  | .second b => s.index = true ∧ get1 s = some b ∧ holds true s = true ∧ holds false s = false ∧ getIf1 s = some (some b) ∧
      getIf0 s = some none ∧ ∀ (γ : Type) (f : α → γ) (g : β → γ), visit f g s = some (g b)

/-- The type of the member has a trivial assignment operator. -/
def trivialTo (T : Types α β) (which : Bool) : Prop := (if which then T.t1 else T.t0).trivialAssign = true

/-! ## Proofs -/

theorem active_some {s : Storage α β} {i : ℕ} {x : Arg α β} (h : active s = some (i, x)) :
    s = match x with | .first a => ⟨false, .first i a⟩ | .second b => ⟨true, .second i b⟩ := by
  obtain ⟨ix, c⟩ := s
  cases ix <;> cases c <;> simp [active] at h
  all_goals obtain ⟨rfl, rfl⟩ := h; rfl

theorem shows_of_active {s : Storage α β} {i : ℕ} {x : Arg α β} (h : active s = some (i, x)) : Shows s x := by
  rw [active_some h]
  cases x <;> simp [Shows, get0, get1, holds, getIf0, getIf1, visit]

theorem active_index {s : Storage α β} {i : ℕ} {x : Arg α β} (h : active s = some (i, x)) : s.index = x.which := by
  rw [active_some h]; cases x <;> rfl

/-- One assignment from a sound state. -/
theorem assign_same (T : Types α β) (s : Storage α β) (w : World) (i : ℕ) (x y : Arg α β) (h : active s = some (i, x)) (hw : x.which = y.which) :
    ∃ s', assign T y s w = some (s', w) ∧ active s' = some (i, y) := by
  rw [active_some h]
  cases x <;> cases y <;> simp [Arg.which] at hw <;> exact ⟨_, rfl, rfl⟩

theorem assign_switch (T : Types α β) (s : Storage α β) (w : World) (i : ℕ) (x y : Arg α β) (h : active s = some (i, x)) (hw : x.which ≠ y.which)
    (ht : trivialTo T y.which) :
    ∃ s' w', assign T y s w = some (s', w') ∧ active s' = some (w.created, y) ∧ w'.created = w.created + 1 ∧
      w'.destroyed = if T.trivial then w.destroyed else i :: w.destroyed := by
  rw [active_some h]
  cases x <;> cases y <;> simp [Arg.which] at hw
  all_goals
    simp only [trivialTo, Arg.which, if_true, Bool.false_eq_true, if_false] at ht
    cases hT : T.trivial <;> simp [assign, Arg.which, clear, hT, active, assignMember, ht]

theorem assign_undefined (T : Types α β) (s : Storage α β) (w : World) (i : ℕ) (x y : Arg α β) (h : active s = some (i, x)) (hw : x.which ≠ y.which)
    (ht : ¬ trivialTo T y.which) : assign T y s w = none := by
  rw [active_some h]
  cases x <;> cases y <;> simp [Arg.which] at hw
  all_goals
    simp only [trivialTo, Arg.which, if_true, Bool.false_eq_true, if_false, Bool.not_eq_true] at ht
    cases hT : T.trivial <;> simp [assign, Arg.which, clear, hT, active, assignMember, ht]

theorem assigns_active (T : Types α β) : ∀ (xs : List (Arg α β)) (s : Storage α β) (w : World) (i : ℕ) (x : Arg α β), active s = some (i, x) →
    ((assigns T xs s w).isSome ↔ List.IsChain (fun a b => a.which ≠ b.which → trivialTo T b.which) (x :: xs)) ∧
    ∀ s' w', assigns T xs s w = some (s', w') → ∃ j, active s' = some (j, (x :: xs).getLast (by simp))
  | [], s, w, i, x, h => by
    refine ⟨by simp [assigns], fun s' w' h' => ?_⟩
    cases h'
    exact ⟨i, h⟩
  | y :: ys, s, w, i, x, h => by
    rw [List.isChain_cons_cons]
    by_cases hw : x.which = y.which
    · obtain ⟨s1, h1, h2⟩ := assign_same T s w i x y h hw
      obtain ⟨ih1, ih2⟩ := assigns_active T ys s1 w i y h2
      rw [assigns, h1, Option.bind_some]
      exact ⟨by rw [ih1]; simp [hw], fun s' w' h' => by simpa using ih2 s' w' h'⟩
    · by_cases ht : trivialTo T y.which
      · obtain ⟨s1, w1, h1, h2, -, -⟩ := assign_switch T s w i x y h hw ht
        obtain ⟨ih1, ih2⟩ := assigns_active T ys s1 w1 _ y h2
        rw [assigns, h1, Option.bind_some]
        exact ⟨by rw [ih1]; simp [ht], fun s' w' h' => by simpa using ih2 s' w' h'⟩
      · rw [assigns, assign_undefined T s w i x y h hw ht, Option.bind_none]
        refine ⟨?_, fun s' w' h' => by cases h'⟩
        simp only [Option.isSome_none, Bool.false_eq_true, false_iff, not_and]
        exact fun h0 => absurd (h0 hw) ht

theorem valueCtor_active (T : Types α β) (x : Arg α β) (w : World) :
    active (valueCtor T x w).1 = some (w.created + 1, x) ∧ (valueCtor T x w).2 = ⟨w.created + 2, w.destroyed⟩ := by
  cases x <;> exact ⟨rfl, rfl⟩

/-- **C63, the variant shows the last value given to it**: after construction from a value and any assignments with defined behaviour, every query
answers as the value assigned last; after default construction as the default of the first type. -/
theorem C63_value (T : Types α β) (x : Arg α β) (xs : List (Arg α β)) (w w' : World) (s : Storage α β)
    (h : assigns T xs (valueCtor T x w).1 (valueCtor T x w).2 = some (s, w')) :
    Shows s ((x :: xs).getLast (by simp)) ∧ Shows (defaultCtor T w).1 (.first T.default0) := by
  obtain ⟨-, h2⟩ := assigns_active T xs _ (valueCtor T x w).2 _ x (valueCtor_active T x w).1
  obtain ⟨j, hj⟩ := h2 s w' h
  exact ⟨shows_of_active hj, shows_of_active (i := w.created) rfl⟩

/-- **C63, when assignments are defined**: exactly when every assignment that changes the alternative goes to a type with a trivial assignment
operator. -/
theorem C63_defined (T : Types α β) (x : Arg α β) (xs : List (Arg α β)) (w : World) :
    (assigns T xs (valueCtor T x w).1 (valueCtor T x w).2).isSome ↔
      List.IsChain (fun a b => a.which ≠ b.which → trivialTo T b.which) (x :: xs) :=
  (assigns_active T xs _ _ _ x (valueCtor_active T x w).1).1

/-- **C63, copies**: a copy of a variant shows the same value. -/
theorem C63_copy (s : Storage α β) (w : World) (i : ℕ) (x : Arg α β) (h : active s = some (i, x)) :
    ∃ s' w', copyCtor s w = some (s', w') ∧ Shows s x ∧ Shows s' x ∧ active s' = some (w.created, x) := by
  rw [copyCtor, h, Option.map_some]
  cases x
  all_goals exact ⟨_, _, rfl, shows_of_active h, shows_of_active (i := w.created) rfl, rfl⟩

/-- Bookkeeping: the objects that exist are the destroyed ones, the active one and the lost ones. -/
def Inv (L : List ℕ) (i : ℕ) (w : World) : Prop :=
  w.destroyed.Nodup ∧ i ∉ w.destroyed ∧ i ∉ L ∧ (∀ k ∈ L, k ∉ w.destroyed) ∧ ∀ k, k < w.created ↔ k ∈ w.destroyed ∨ k = i ∨ k ∈ L

theorem assigns_inv (T : Types α β) (hT : T.trivial = false) (L : List ℕ) : ∀ (xs : List (Arg α β)) (s s' : Storage α β) (w w' : World) (i : ℕ)
    (x : Arg α β), active s = some (i, x) → Inv L i w → assigns T xs s w = some (s', w') → ∃ j y, active s' = some (j, y) ∧ Inv L j w'
  | [], s, s', w, w', i, x, h, hI, h' => by cases h'; exact ⟨i, x, h, hI⟩
  | y :: ys, s, s', w, w', i, x, h, hI, h' => by
    by_cases hw : x.which = y.which
    · obtain ⟨s1, h1, h2⟩ := assign_same T s w i x y h hw
      rw [assigns, h1, Option.bind_some] at h'
      exact assigns_inv T hT L ys s1 s' w w' i y h2 hI h'
    · by_cases ht : trivialTo T y.which
      · obtain ⟨s1, w1, h1, h2, h3, h4⟩ := assign_switch T s w i x y h hw ht
        rw [assigns, h1, Option.bind_some] at h'
        refine assigns_inv T hT L ys s1 s' w1 w' _ y h2 ?_ h'
        rw [hT, if_neg (by simp)] at h4
        obtain ⟨a, b, c, d, e⟩ := hI
        have hlt : ∀ k, k ∈ w.destroyed ∨ k = i ∨ k ∈ L → k < w.created := fun k hk => (e k).mpr hk
        refine ⟨h4 ▸ List.nodup_cons.mpr ⟨b, a⟩, ?_, fun hL => absurd (hlt _ (.inr (.inr hL))) (lt_irrefl _), fun k hk => ?_, fun k => ?_⟩
        · rw [h4, List.mem_cons, not_or]
          exact ⟨fun h0 => absurd (hlt _ (.inr (.inl h0))) (lt_irrefl _), fun h0 => absurd (hlt _ (.inl h0)) (lt_irrefl _)⟩
        · rw [h4, List.mem_cons, not_or]
          exact ⟨fun h0 => c (h0 ▸ hk), d k hk⟩
        · rw [h3, Nat.lt_succ_iff_lt_or_eq, e, h4, List.mem_cons]
          tauto
      · rw [assigns, assign_undefined T s w i x y h hw ht] at h'
        cases h'

theorem destroy_inv (T : Types α β) (hT : T.trivial = false) (L : List ℕ) (s : Storage α β) (w : World) (i : ℕ) (x : Arg α β)
    (h : active s = some (i, x)) (hI : Inv L i w) :
    ∃ w', destroy T s w = some w' ∧ w'.destroyed.Nodup ∧ ∀ k, k ∈ w'.destroyed ↔ k < w'.created ∧ k ∉ L := by
  refine ⟨⟨w.created, i :: w.destroyed⟩, by rw [destroy, clear, hT, if_neg (by simp), h]; rfl, ?_, fun k => ?_⟩
  · exact List.nodup_cons.mpr ⟨hI.2.1, hI.1⟩
  · obtain ⟨a, b, c, d, e⟩ := hI
    show k ∈ i :: w.destroyed ↔ k < w.created ∧ k ∉ L
    rw [List.mem_cons, e]
    constructor
    · rintro (rfl | hk)
      · exact ⟨.inr (.inl rfl), c⟩
      · exact ⟨.inl hk, fun hL => d k hL hk⟩
    · rintro ⟨hk | hk | hk, hL⟩
      · exact .inr hk
      · exact .inl hk
      · exact absurd hk hL

/-- **C63, lifetimes of a default-constructed variant**: with a nontrivial destructor, after any assignments with defined behaviour and the
variant's destruction, every object ever created has been destroyed, exactly once. -/
theorem C63_lifetime (T : Types α β) (hT : T.trivial = false) (xs : List (Arg α β)) (s : Storage α β) (w : World)
    (h : assigns T xs (defaultCtor T ⟨0, []⟩).1 (defaultCtor T ⟨0, []⟩).2 = some (s, w)) :
    ∃ w', destroy T s w = some w' ∧ w'.destroyed.Nodup ∧ ∀ k, k ∈ w'.destroyed ↔ k < w'.created := by
  obtain ⟨j, y, h1, h2⟩ := assigns_inv T hT [] xs _ s _ w 0 (.first T.default0) rfl (by simp [Inv, defaultCtor]) h
  obtain ⟨w', h3, h4, h5⟩ := destroy_inv T hT [] s w j y h1 h2
  exact ⟨w', h3, h4, by simpa using h5⟩

/-- **C63, lifetimes of a variant constructed from a value**: all objects are destroyed exactly once, except the first member that was default
constructed before the value was placed over it: its destructor never runs.  Full statement: as `C63_lifetime`, without the exception. -/
theorem C63_lifetime_partial (T : Types α β) (hT : T.trivial = false) (x : Arg α β) (xs : List (Arg α β)) (s : Storage α β) (w : World)
    (h : assigns T xs (valueCtor T x ⟨0, []⟩).1 (valueCtor T x ⟨0, []⟩).2 = some (s, w)) :
    ∃ w', destroy T s w = some w' ∧ w'.destroyed.Nodup ∧ ∀ k, k ∈ w'.destroyed ↔ k < w'.created ∧ k ≠ 0 := by
  have hv := valueCtor_active T x ⟨0, []⟩
  obtain ⟨j, y, h1, h2⟩ := assigns_inv T hT [0] xs _ s _ w 1 x hv.1 (by
    rw [hv.2]
    refine ⟨by simp, by simp, by simp, by simp, fun k => ?_⟩
    simp only [List.not_mem_nil, false_or, List.mem_singleton]
    omega) h
  obtain ⟨w', h3, h4, h5⟩ := destroy_inv T hT [0] s w j y h1 h2
  exact ⟨w', h3, h4, by simpa using h5⟩

/-- **C63, switching alternatives is undefined for coefficients and owning pointers** (violation): a `GeneralCoefficient` holding a scalar
coefficient cannot be assigned a vector coefficient, nor the reverse, and a `MaybeOwningPointer` holding a raw pointer cannot be assigned an owning
one; only the assignment of a raw pointer over an owning one is defined, and it destroys the owner. -/
theorem C63_switch_wrong {S V Addr : Type} (w : World) :
    (∀ (a : Option S) (b : Option V),
      assigns (generalCoefficient S V) [.second b] (valueCtor (generalCoefficient S V) (.first a) w).1 (valueCtor (generalCoefficient S V) (.first a) w).2 = none ∧
      assigns (generalCoefficient S V) [.first a] (valueCtor (generalCoefficient S V) (.second b) w).1 (valueCtor (generalCoefficient S V) (.second b) w).2 = none) ∧
    ∀ a b : Option Addr,
      assigns (maybeOwning Addr) [.second b] (valueCtor (maybeOwning Addr) (.first a) w).1 (valueCtor (maybeOwning Addr) (.first a) w).2 = none ∧
      ∃ s w', assigns (maybeOwning Addr) [.first a] (valueCtor (maybeOwning Addr) (.second b) w).1 (valueCtor (maybeOwning Addr) (.second b) w).2 = some (s, w') ∧
        retrieve s = a ∧ w'.destroyed = (w.created + 1) :: w.destroyed :=
  ⟨fun _ _ => ⟨rfl, rfl⟩, fun a b => ⟨rfl, _, _, rfl, by cases a <;> rfl, rfl⟩⟩

/-- **C63, retrieving the object of a possibly owning pointer**: the address given last, whichever kind of pointer holds it; a null pointer is
undefined. -/
theorem C63_retrieve {Addr : Type} (s : Storage (Option Addr) (Option Addr)) (i : ℕ) (q : Option Addr)
    (h : active s = some (i, .first q) ∨ active s = some (i, .second q)) : retrieve s = q := by
  rcases h with h | h <;> rw [active_some h] <;> cases q <;> rfl

/-- **C63, where a value goes** (violation): an argument of exactly the second type reaches the second member only if it does not convert to the
first; otherwise the variant holds the first type. -/
theorem C63_choice_wrong (assign0 assign1 : Bool) : (choose false assign0 true assign1 = some true ↔ assign0 = false) ∧
    (choose false assign0 true assign1 = some false ↔ assign0 = true) := by
  cases assign0 <;> simp [choose]

/-! ### Examples -/

def exTypes : Types ℤ Bool := ⟨⟨true, true⟩, ⟨true, true⟩, 0⟩

/-- A variant of two trivial types may switch at will. -/
example : (assigns exTypes [.second true, .first 3, .second false] (valueCtor exTypes (.first 1) ⟨0, []⟩).1
    (valueCtor exTypes (.first 1) ⟨0, []⟩).2).isSome := by
  rw [C63_defined]
  simp [trivialTo, exTypes]

/-- Owning, then a raw pointer, then another raw pointer: defined, shows the last one, and objects 1 and 2 are destroyed. -/
example : ∃ s w w', assigns (maybeOwning ℕ) [.first (some 7), .first (some 9)] (valueCtor (maybeOwning ℕ) (.second (some 5)) ⟨0, []⟩).1
      (valueCtor (maybeOwning ℕ) (.second (some 5)) ⟨0, []⟩).2 = some (s, w) ∧ Shows s (.first (some 9)) ∧
      destroy (maybeOwning ℕ) s w = some w' ∧ ∀ k, k ∈ w'.destroyed ↔ k < w'.created ∧ k ≠ 0 := by
  have h : assigns (maybeOwning ℕ) [.first (some 7), .first (some 9)] (valueCtor (maybeOwning ℕ) (.second (some 5)) ⟨0, []⟩).1
      (valueCtor (maybeOwning ℕ) (.second (some 5)) ⟨0, []⟩).2 = some (⟨false, .first 2 (some 9)⟩, ⟨3, [1]⟩) := rfl
  obtain ⟨w', h1, -, h2⟩ := C63_lifetime_partial (maybeOwning ℕ) rfl _ _ _ _ h
  exact ⟨_, _, w', h, (C63_value _ _ _ _ _ _ h).1, h1, h2⟩

example : ∃ s w, assigns (generalCoefficient ℕ ℕ) [.first (some 3)] (defaultCtor (generalCoefficient ℕ ℕ) ⟨0, []⟩).1
    (defaultCtor (generalCoefficient ℕ ℕ) ⟨0, []⟩).2 = some (s, w) := ⟨_, _, rfl⟩

end Serac.C63
