import Verif.Model.ContactMemory
import Mathlib.Tactic.Ring
import Mathlib.Tactic.Abel
import Mathlib.Algebra.Order.Group.Multiset
import Mathlib.Algebra.Order.BigOperators.Group.List
/-!
# C100: tangents with contact give back the memory they take

Spec.  Evaluating the tangent of a problem with contact, however often, leaves in memory only the matrices that the module holds; destroying the module leaves none.

The code is safe (nothing is freed twice or used after it is freed) but loses, in every evaluation, the constraint matrix of every interaction with multipliers and the tangent of
the body if the contact contributes to its block (`lost`).
-/

namespace Serac.C100
open Serac.Memory

/-! ## Specification -/

/-- The address held by a pointer. -/
def held : Option ℕ → Multiset ℕ
  | none => 0
  | some p => {p}

/-- What the module holds. -/
def owned (s : Members) : Multiset ℕ := held s.J + held s.J12 + held s.J21 + held s.J22 + held s.Je + held s.Je21

/-- Contributions to the (0,0) block. -/
def parts (xs : List Shape) : ℕ := (xs.map fun x => (if x.has00 then 1 else 0) + if x.lm then 0 else 1).sum

/-- Interactions with multipliers. -/
def multipliers (xs : List Shape) : ℕ := (xs.map fun x => if x.lm then 1 else 0).sum

/-- Matrices lost by one evaluation. -/
def lost (deletes : Bool) (xs : List Shape) : ℕ := multipliers xs + (if parts xs = 0 then 0 else 1) + if deletes then 0 else parts xs

/-- Tribol returns both blocks of constraints for every interaction. -/
def Complete (xs : List Shape) : Prop := ∀ x ∈ xs, x.has10 = true ∧ x.has01 = true

/-! ## Programs and what they leave -/

/-- From every heap with matrices `A` the program ends, with a result and matrices as said. -/
def Sat {α : Type} (m : M α) (A : Multiset ℕ) (Q : α → Multiset ℕ → Prop) : Prop := ∀ h : Heap, h.live = A → ∃ a h', m h = some (a, h') ∧ Q a h'.live

theorem Sat.ret {α : Type} (a : α) {A : Multiset ℕ} {Q : α → Multiset ℕ → Prop} (h : Q a A) : Sat (ret a) A Q := fun h' e => ⟨a, h', rfl, e ▸ h⟩

theorem Sat.andThen {α β : Type} {m : M α} {f : α → M β} {A : Multiset ℕ} {Q : α → Multiset ℕ → Prop} {Q' : β → Multiset ℕ → Prop} (h1 : Sat m A Q)
    (h2 : ∀ a A', Q a A' → Sat (f a) A' Q') : Sat (andThen m f) A Q' := by
  intro h e
  obtain ⟨a, h', e1, q⟩ := h1 h e
  obtain ⟨b, h'', e2, q'⟩ := h2 a h'.live q h' rfl
  exact ⟨b, h'', by unfold Memory.andThen; rw [e1]; exact e2, q'⟩

theorem Sat.alloc {A : Multiset ℕ} : Sat alloc A fun p A' => A' = {p} + A := fun h e => ⟨h.next, _, rfl, by rw [← e]; rfl⟩

theorem Sat.free {p : ℕ} {A A1 : Multiset ℕ} (hp : A = {p} + A1) : Sat (free p) A fun _ A' => A' = A1 := by
  intro h e
  refine ⟨(), { h with live := h.live.erase p }, by unfold Memory.free; rw [if_pos (by rw [e, hp]; simp)], ?_⟩
  dsimp only
  rw [e, hp, Multiset.singleton_add, Multiset.erase_cons_head]

theorem Sat.use {p : ℕ} {A A1 : Multiset ℕ} (hp : A = {p} + A1) : Sat (use p) A fun _ A' => A' = A := by
  intro h e
  exact ⟨(), h, by unfold Memory.use; rw [if_pos (by rw [e, hp]; simp)], e⟩

theorem Sat.mono {α : Type} {m : M α} {A : Multiset ℕ} {Q Q' : α → Multiset ℕ → Prop} (h : Sat m A Q) (hQ : ∀ a A', Q a A' → Q' a A') : Sat m A Q' := by
  intro h' e
  obtain ⟨a, h'', e1, q⟩ := h h' e
  exact ⟨a, h'', e1, hQ _ _ q⟩

theorem Sat.freeIf {p : Option ℕ} {A A1 : Multiset ℕ} (h : A = held p + A1) : Sat (freeIf p) A fun _ A' => A' = A1 := by
  cases p with
  | none => exact Sat.ret _ (by simp [h, held])
  | some p => exact Sat.free h

theorem Sat.allocIf {b : Bool} {A : Multiset ℕ} : Sat (allocIf b) A fun p A' => A' = held p + A ∧ p.isSome = b := by
  unfold Memory.allocIf
  cases b with
  | false => exact Sat.ret _ (by simp [held])
  | true =>
    refine Sat.andThen Sat.alloc fun p A' hA => Sat.ret _ ?_
    simp [held, hA]

theorem Sat.jacobian {x : Shape} {A : Multiset ℕ} : Sat (jacobian x) A fun J A' => A' = held J.b00 + held J.b10 + held J.b01 + held J.b11 + A ∧
    J.b00.isSome = x.has00 ∧ J.b10.isSome = x.has10 ∧ J.b01.isSome = x.has01 ∧ J.b11.isSome = x.has11 := by
  unfold Memory.jacobian
  refine Sat.andThen Sat.allocIf fun a A1 h1 => Sat.andThen Sat.allocIf fun b A2 h2 => Sat.andThen Sat.allocIf fun c A3 h3 => Sat.andThen Sat.allocIf fun d A4 h4 => Sat.ret _ ?_
  refine ⟨?_, h1.2, h2.2, h3.2, h4.2⟩
  rw [h4.1, h3.1, h2.1, h1.1]
  abel

/-- How many matrices a replaced block loses. -/
def drop (deletes : Bool) (q : Option ℕ) : ℕ := if deletes then 0 else Multiset.card (held q)

theorem Sat.setBlock {deletes : Bool} {b : Blocks} {p : ℕ} {A A1 : Multiset ℕ} (h : A = held b.b00 + A1) :
    Sat (setBlock deletes b p) A fun b' A' => b' = { b with b00 := some p } ∧ ∃ L : Multiset ℕ, A' = L + A1 ∧ Multiset.card L = drop deletes b.b00 := by
  unfold Memory.setBlock
  cases deletes with
  | true => exact Sat.andThen (Q := fun _ A' => A' = A1) (Sat.freeIf h) fun _ A' hA => Sat.ret _ ⟨rfl, 0, by simp [hA], by simp [drop]⟩
  | false => exact Sat.andThen (Q := fun _ A' => A' = A) (Sat.ret _ rfl) fun _ A' hA => Sat.ret _ ⟨rfl, held b.b00, by rw [hA, h], by simp [drop]⟩

/-- `n` contributions to the (0,0) block turn `b` into `b'` and lose `L`. -/
def Step (deletes : Bool) (n : ℕ) (b b' : Blocks) (L : Multiset ℕ) : Prop :=
  b' = { b with b00 := b'.b00 } ∧ (b'.b00 = none ↔ n = 0 ∧ b.b00 = none) ∧
  Multiset.card L + (if deletes then 0 else Multiset.card (held b'.b00)) = if deletes then 0 else Multiset.card (held b.b00) + n

theorem Step.zero (deletes : Bool) (b : Blocks) : Step deletes 0 b b 0 := ⟨rfl, by simp, by simp⟩

theorem Step.trans {deletes : Bool} {n n' : ℕ} {b b' b'' : Blocks} {L L' : Multiset ℕ} (h : Step deletes n b b' L) (h' : Step deletes n' b' b'' L') :
    Step deletes (n + n') b b'' (L + L') := by
  obtain ⟨h1, h2, h3⟩ := h
  obtain ⟨k1, k2, k3⟩ := h'
  refine ⟨?_, ?_, ?_⟩
  · rw [k1, h1]
  · rw [k2, h2]
    constructor
    · rintro ⟨rfl, rfl, e⟩; exact ⟨rfl, e⟩
    · rintro ⟨e1, e2⟩; exact ⟨by omega, by omega, e2⟩
  · rw [Multiset.card_add]
    cases deletes <;> simp at h3 k3 ⊢
    · omega
    · simp [h3, k3]

theorem Step.first {deletes : Bool} {b b' : Blocks} {p : ℕ} {L : Multiset ℕ} (h : b' = { b with b00 := some p }) (hL : Multiset.card L = drop deletes b.b00) : Step deletes 1 b b' L := by
  subst h
  refine ⟨rfl, by simp, ?_⟩
  rw [hL]
  unfold drop
  cases deletes <;> simp [held]

theorem Sat.add00 {deletes : Bool} {b : Blocks} {p : Option ℕ} {A F : Multiset ℕ} (h : A = held p + held b.b00 + F) :
    Sat (add00 deletes b p) A fun b' A' => ∃ L, A' = held b'.b00 + L + F ∧ Step deletes (if p.isSome then 1 else 0) b b' L := by
  cases p with
  | none => exact Sat.ret _ ⟨0, by rw [h]; simp [held], by simpa using Step.zero deletes b⟩
  | some p =>
    unfold Memory.add00
    dsimp only
    split
    · rename_i hb
      refine (Sat.setBlock (A1 := {p} + F) (by rw [h, hb]; simp [held])).mono ?_
      rintro b' A' ⟨h1, L, h2, h3⟩
      exact ⟨L, by rw [h2, h1]; simp only [held]; abel, by simpa using Step.first h1 h3⟩
    · rename_i q hb
      refine Sat.andThen (Sat.use (A1 := {p} + F) (by rw [h, hb]; simp only [held]; abel)) ?_
      rintro _ _ rfl
      refine Sat.andThen (Sat.use (A1 := {q} + F) (by rw [h, hb]; simp only [held]; abel)) ?_
      rintro _ _ rfl
      refine Sat.andThen Sat.alloc ?_
      rintro s _ rfl
      refine Sat.andThen (Sat.setBlock (A1 := {s} + {p} + F) (by rw [h]; simp only [held]; abel)) ?_
      rintro b' A' ⟨h1, L, h2, h3⟩
      refine Sat.andThen (Sat.free (A1 := L + {s} + F) (by rw [h2]; abel)) ?_
      rintro _ _ rfl
      exact Sat.ret _ ⟨L, by rw [h1]; simp only [held]; abel, by simpa using Step.first h1 h3⟩

theorem Sat.penalty {deletes : Bool} {b : Blocks} {B : ℕ} {A F : Multiset ℕ} (h : A = {B} + held b.b00 + F) :
    Sat (penalty deletes b B) A fun b' A' => ∃ L, A' = held b'.b00 + L + F ∧ Step deletes 1 b b' L := by
  unfold Memory.penalty
  refine Sat.andThen (Sat.use (A1 := held b.b00 + F) (by rw [h]; abel)) ?_
  rintro _ _ rfl
  refine Sat.andThen Sat.alloc ?_
  rintro t _ rfl
  refine Sat.andThen Sat.alloc ?_
  rintro btb _ rfl
  refine Sat.andThen (Sat.free (A1 := {btb} + ({B} + held b.b00 + F)) (by rw [h]; abel)) ?_
  rintro _ _ rfl
  refine Sat.andThen (Sat.free (A1 := {btb} + held b.b00 + F) (by abel)) ?_
  rintro _ _ rfl
  split
  · rename_i hb
    refine (Sat.setBlock (A1 := {btb} + F) (by abel)).mono ?_
    rintro b' A' ⟨h1, L, h2, h3⟩
    exact ⟨L, by rw [h2, h1]; simp only [held]; abel, Step.first h1 h3⟩
  · rename_i q hb
    refine Sat.andThen (Sat.use (A1 := {btb} + F) (by rw [hb]; simp only [held]; abel)) ?_
    rintro _ _ rfl
    refine Sat.andThen (Sat.use (A1 := held b.b00 + F) (by abel)) ?_
    rintro _ _ rfl
    refine Sat.andThen Sat.alloc ?_
    rintro s _ rfl
    refine Sat.andThen (Sat.setBlock (A1 := {s} + {btb} + F) (by abel)) ?_
    rintro b' A' ⟨h1, L, h2, h3⟩
    refine Sat.andThen (Sat.free (A1 := L + {s} + F) (by rw [h2]; abel)) ?_
    rintro _ _ rfl
    exact Sat.ret _ ⟨L, by rw [h1]; simp only [held]; abel, Step.first h1 h3⟩

/-- Matrices in the array of constraints. -/
def ptrs : List Entry → Multiset ℕ
  | [] => 0
  | .ptr p :: es => {p} + ptrs es
  | _ :: es => ptrs es

theorem ptrs_append (a c : List Entry) : ptrs (a ++ c) = ptrs a + ptrs c := by
  induction a with
  | nil => simp [ptrs]
  | cons e es ih => cases e <;> simp [ptrs, ih]

theorem Sat.constraint {deletes : Bool} {x : Shape} {J b : Blocks} {A F : Multiset ℕ} (h : A = held J.b10 + held J.b01 + held J.b11 + held b.b00 + F) (h10 : J.b10.isSome)
    (h01 : J.b01.isSome) :
    Sat (constraint deletes x J b) A fun r A' => ∃ L, A' = ptrs [r.2] + held r.1.b00 + L + F ∧ Step deletes (if x.lm then 0 else 1) b r.1 L ∧ r.2 ≠ .junk ∧
      Multiset.card (ptrs [r.2]) = if x.lm then 1 else 0 := by
  unfold Memory.constraint
  obtain ⟨B, hB⟩ := Option.isSome_iff_exists.1 h10
  obtain ⟨c, hc⟩ := Option.isSome_iff_exists.1 h01
  rw [hB, hc]
  dsimp only
  refine Sat.andThen (Sat.use (A1 := held J.b01 + held J.b11 + held b.b00 + F) (by rw [h, hB]; simp only [held]; abel)) ?_
  rintro _ _ rfl
  refine Sat.andThen (Q := fun r A' => ∃ L, A' = {c} + held J.b11 + (ptrs [r.2] + held r.1.b00 + L + F) ∧ Step deletes (if x.lm then 0 else 1) b r.1 L ∧ r.2 ≠ .junk ∧
      Multiset.card (ptrs [r.2]) = if x.lm then 1 else 0) ?_ ?_
  · by_cases hl : x.lm = true
    · simp only [hl, if_true]
      refine Sat.ret _ ⟨0, ?_, Step.zero _ _, by simp, by simp [ptrs]⟩
      rw [h, hB, hc]
      simp only [held, ptrs]
      abel
    · simp only [hl, Bool.false_eq_true, if_false]
      refine Sat.andThen (Sat.penalty (F := {c} + held J.b11 + F) (by rw [h, hB, hc]; simp only [held]; abel)) ?_
      rintro b' A' ⟨L, h1, h2⟩
      refine Sat.ret _ ⟨L, ?_, by simpa using h2, by simp, by simp [ptrs]⟩
      rw [h1]
      simp only [ptrs]
      abel
  · rintro r A' ⟨L, h1, h2⟩
    refine Sat.andThen (Sat.free (A1 := held J.b11 + (ptrs [r.2] + held r.1.b00 + L + F)) (by rw [h1]; abel)) ?_
    rintro _ _ rfl
    refine Sat.andThen (Sat.freeIf rfl) ?_
    rintro _ _ rfl
    exact Sat.ret _ ⟨L, rfl, h2⟩

theorem Sat.mergeLoop {deletes : Bool} (xs : List Shape) (hx : Complete xs) {b : Blocks} {es : List Entry} {A F : Multiset ℕ} (h : A = held b.b00 + ptrs es + F) (hes : ∀ e ∈ es, e ≠ .junk) :
    Sat (mergeLoop deletes xs b es) A fun r A' => ∃ L, A' = held r.1.b00 + ptrs r.2 + L + F ∧ Step deletes (parts xs) b r.1 L ∧ (∀ e ∈ r.2, e ≠ .junk) ∧
      Multiset.card (ptrs r.2) = Multiset.card (ptrs es) + multipliers xs := by
  induction xs generalizing b es A F with
  | nil => exact Sat.ret _ ⟨0, by rw [h]; simp, by simpa [parts] using Step.zero deletes b, hes, by simp [multipliers]⟩
  | cons x xs ih =>
    unfold Memory.mergeLoop
    refine Sat.andThen Sat.jacobian ?_
    rintro J A1 ⟨hJ, j0, j1, j2, j3⟩
    refine Sat.andThen (Sat.add00 (F := held J.b10 + held J.b01 + held J.b11 + ptrs es + F) (by rw [hJ, h]; abel)) ?_
    rintro b1 A2 ⟨L1, h1, h2⟩
    obtain ⟨x1, x2⟩ := hx x (by simp)
    refine Sat.andThen (Sat.constraint (F := L1 + ptrs es + F) (by rw [h1]; abel) (by rw [j1, x1]) (by rw [j2, x2])) ?_
    rintro r A3 ⟨L2, k1, k2, k3, k4⟩
    refine (ih (fun y hy => hx y (by simp [hy])) (b := r.1) (es := es ++ [r.2]) (F := L1 + L2 + F) (by rw [k1, ptrs_append]; abel) (fun e he => ?_)).mono ?_
    · rcases List.mem_append.1 he with he | he
      · exact hes e he
      · rw [List.mem_singleton.1 he]; exact k3
    · rintro r' A' ⟨L3, l1, l2, l3, l4⟩
      refine ⟨L1 + L2 + L3, by rw [l1]; abel, ?_, l3, ?_⟩
      · have := (h2.trans k2).trans l2
        rw [j0] at this
        simpa [parts] using this
      · rw [l4, ptrs_append, Multiset.card_add, k4]
        simp [multipliers]
        omega

theorem Sat.readAll {es : List Entry} (hes : ∀ e ∈ es, e ≠ .junk) {A F : Multiset ℕ} (h : A = ptrs es + F) : Sat (readAll es) A fun _ A' => A' = A := by
  induction es generalizing F with
  | nil => exact Sat.ret _ rfl
  | cons e es ih =>
    cases e with
    | junk => exact absurd rfl (hes _ (by simp))
    | null => exact ih (fun e he => hes e (by simp [he])) h
    | ptr p =>
      unfold Memory.readAll
      refine Sat.andThen (Sat.use (A1 := ptrs es + F) (by rw [h]; simp only [ptrs]; abel)) ?_
      rintro _ _ rfl
      exact ih (fun e he => hes e (by simp [he])) (F := {p} + F) (by rw [h]; simp only [ptrs]; abel)

theorem Sat.mergedJacobian {deletes : Bool} {xs : List Shape} (hx : Complete xs) {A : Multiset ℕ} :
    Sat (mergedJacobian deletes xs) A fun b A' => ∃ L K, A' = held b.b00 + held b.b10 + held b.b01 + held b.b11 + L + K + A ∧
      Step deletes (parts xs) {} ⟨b.b00, none, none, none⟩ L ∧ Multiset.card K = multipliers xs ∧
      (haveMultipliers xs = true → b.b10.isSome ∧ b.b01.isSome ∧ b.b11.isSome) ∧ (haveMultipliers xs = false → b.b10 = none ∧ b.b01 = none ∧ b.b11 = none) := by
  unfold Memory.mergedJacobian
  refine Sat.andThen (Sat.mergeLoop xs hx (b := {}) (es := []) (F := A) (by simp [held, ptrs]) (by simp)) ?_
  rintro r A1 ⟨L, h1, h2, h3, h4⟩
  have hr : r.1 = ⟨r.1.b00, none, none, none⟩ := h2.1
  have hstep : Step deletes (parts xs) {} ⟨r.1.b00, none, none, none⟩ L := hr ▸ h2
  by_cases hm : haveMultipliers xs = true
  · simp only [hm, if_true]
    refine Sat.andThen (Sat.readAll h3 (F := held r.1.b00 + L + A) (by rw [h1]; abel)) ?_
    rintro _ _ rfl
    refine Sat.andThen Sat.alloc ?_
    rintro p10 _ rfl
    refine Sat.andThen Sat.alloc ?_
    rintro p01 _ rfl
    refine Sat.andThen Sat.alloc ?_
    rintro p11 _ rfl
    refine Sat.ret _ ⟨L, ptrs r.2, ?_, hstep, by simpa [ptrs] using h4, by simp, by simp⟩
    rw [h1]
    simp only [held]
    abel
  · simp only [hm, Bool.false_eq_true, if_false]
    refine Sat.ret _ ⟨L, ptrs r.2, ?_, hstep, by simpa [ptrs] using h4, by simp, fun _ => by rw [hr]; simp⟩
    rw [h1, hr]
    simp only [held]
    abel

theorem Sat.jacobianFunction {deletes : Bool} {xs : List Shape} (hx : Complete xs) {orig : ℕ} {A F : Multiset ℕ} (h : A = {orig} + F) :
    Sat (jacobianFunction deletes xs orig) A fun b A' => ∃ L, A' = held b.b00 + held b.b10 + held b.b01 + held b.b11 + L + F ∧ Multiset.card L = lost deletes xs ∧
      b.b00.isSome ∧ (haveMultipliers xs = true → b.b10.isSome ∧ b.b01.isSome ∧ b.b11.isSome) ∧
      (haveMultipliers xs = false → b.b10 = none ∧ b.b01 = none ∧ b.b11 = none) := by
  unfold Memory.jacobianFunction
  refine Sat.andThen (Sat.mergedJacobian hx) ?_
  rintro b A1 ⟨L, K, h1, ⟨-, h2, h3⟩, h4, h5, h6⟩
  dsimp only at h2 h3
  split
  · rename_i hb
    have hp : parts xs = 0 := (h2.1 hb).1
    refine (Sat.setBlock (A1 := held b.b10 + held b.b01 + held b.b11 + L + K + A) (by rw [h1]; abel)).mono ?_
    rintro b' A' ⟨k1, L', k2, k3⟩
    rw [k1]
    dsimp only
    refine ⟨L' + L + K, ?_, ?_, rfl, h5, h6⟩
    · rw [k2, h]; simp only [held]; abel
    · rw [Multiset.card_add, Multiset.card_add, h4, k3, hb]
      rw [hb, hp] at h3
      unfold lost drop
      rw [hp]
      cases deletes <;> simp [held] at h3 ⊢ <;> simp [h3]
  · rename_i q hb
    have hp : parts xs ≠ 0 := by
      intro h0
      have := h2.2 ⟨h0, rfl⟩
      rw [hb] at this
      cases this
    refine Sat.andThen (Sat.use (A1 := held b.b00 + held b.b10 + held b.b01 + held b.b11 + L + K + F) (by rw [h1, h]; abel)) ?_
    rintro _ _ rfl
    refine Sat.andThen (Sat.use (A1 := held b.b10 + held b.b01 + held b.b11 + L + K + A) (by rw [h1, hb]; simp only [held]; abel)) ?_
    rintro _ _ rfl
    refine Sat.andThen Sat.alloc ?_
    rintro s _ rfl
    refine (Sat.setBlock (A1 := {s} + held b.b10 + held b.b01 + held b.b11 + L + K + A) (by rw [h1]; abel)).mono ?_
    rintro b' A' ⟨k1, L', k2, k3⟩
    rw [k1]
    dsimp only
    refine ⟨L' + L + K + {orig}, ?_, ?_, rfl, h5, h6⟩
    · rw [k2, h]; simp only [held]; abel
    · rw [Multiset.card_add, Multiset.card_add, Multiset.card_add, h4, k3, hb, Multiset.card_singleton]
      rw [hb] at h3
      unfold lost drop
      rw [if_neg hp]
      cases deletes <;> simp [held] at h3 ⊢
      · omega
      · simp [h3]

theorem Sat.take {old new : Option ℕ} (hn : new.isSome) {A F : Multiset ℕ} (h : A = held old + F) : Sat (take old new) A fun p A' => p = new ∧ A' = F := by
  obtain ⟨p, rfl⟩ := Option.isSome_iff_exists.1 hn
  unfold Memory.take
  dsimp only
  refine Sat.andThen (Sat.freeIf h) ?_
  rintro _ _ rfl
  exact Sat.ret _ ⟨rfl, rfl⟩

theorem Sat.useSome {p : Option ℕ} (hp : p.isSome) {A F : Multiset ℕ} (h : A = held p + F) : Sat (p.elim undefined Memory.use) A fun _ A' => A' = A := by
  obtain ⟨p, rfl⟩ := Option.isSome_iff_exists.1 hp
  exact Sat.use h

theorem Sat.gradient {deletes : Bool} {xs : List Shape} (hx : Complete xs) {s : Members} {A F : Multiset ℕ} (h : A = owned s + F) :
    Sat (gradient deletes xs s) A fun s' A' => ∃ L, A' = owned s' + L + F ∧ Multiset.card L = lost deletes xs := by
  unfold Memory.gradient
  refine Sat.andThen Sat.alloc ?_
  rintro orig _ rfl
  refine Sat.andThen (Sat.freeIf (A1 := {orig} + (held s.J12 + held s.J21 + held s.J22 + held s.Je + held s.Je21 + F)) (by rw [h]; unfold owned; abel)) ?_
  rintro _ _ rfl
  refine Sat.andThen (Sat.jacobianFunction hx rfl) ?_
  rintro b A1 ⟨L, h1, h2, h3, h4, h5⟩
  refine Sat.andThen (Sat.take h3 (F := A1) (by simp [held])) ?_
  rintro J A2 ⟨rfl, rfl⟩
  by_cases hm : haveMultipliers xs = true
  · simp only [hm, if_true]
    obtain ⟨b1, b2, b3⟩ := h4 hm
    refine Sat.andThen (Sat.take b2 (F := held b.b00 + held b.b10 + held b.b01 + held b.b11 + L + (held s.J21 + held s.J22 + held s.Je + held s.Je21 + F)) (by rw [h1]; abel)) ?_
    rintro J12 A3 ⟨rfl, rfl⟩
    refine Sat.andThen (Sat.take b1 (F := held b.b00 + held b.b10 + held b.b01 + held b.b11 + L + (held s.J22 + held s.Je + held s.Je21 + F)) (by abel)) ?_
    rintro J21 A3 ⟨rfl, rfl⟩
    refine Sat.andThen (Sat.take b3 (F := held b.b00 + held b.b10 + held b.b01 + held b.b11 + L + (held s.Je + held s.Je21 + F)) (by abel)) ?_
    rintro J22 A3 ⟨rfl, rfl⟩
    refine Sat.andThen (Sat.useSome h3 (F := held b.b10 + held b.b01 + held b.b11 + L + (held s.Je + held s.Je21 + F)) (by abel)) ?_
    rintro _ _ rfl
    refine Sat.andThen Sat.alloc ?_
    rintro Je _ rfl
    refine Sat.andThen (Sat.freeIf (A1 := {Je} + (held b.b00 + held b.b10 + held b.b01 + held b.b11 + L + (held s.Je21 + F))) (by abel)) ?_
    rintro _ _ rfl
    refine Sat.andThen (Sat.useSome b1 (F := {Je} + (held b.b00 + held b.b01 + held b.b11 + L + (held s.Je21 + F))) (by abel)) ?_
    rintro _ _ rfl
    refine Sat.andThen Sat.alloc ?_
    rintro Je21 _ rfl
    refine Sat.andThen (Sat.freeIf (A1 := {Je21} + ({Je} + (held b.b00 + held b.b10 + held b.b01 + held b.b11 + L + F))) (by abel)) ?_
    rintro _ _ rfl
    refine Sat.andThen (Sat.useSome b2 (F := {Je21} + ({Je} + (held b.b00 + held b.b10 + held b.b11 + L + F))) (by abel)) ?_
    rintro _ _ rfl
    exact Sat.ret _ ⟨L, by simp only [owned, held]; abel, h2⟩
  · simp only [hm, Bool.false_eq_true, if_false]
    obtain ⟨b1, b2, b3⟩ := h5 (by simpa using hm)
    refine Sat.andThen (Sat.useSome h3 (F := held b.b10 + held b.b01 + held b.b11 + L + (held s.J12 + held s.J21 + held s.J22 + held s.Je + held s.Je21 + F)) (by rw [h1]; abel)) ?_
    rintro _ _ rfl
    refine Sat.andThen Sat.alloc ?_
    rintro Je _ rfl
    refine Sat.andThen (Sat.freeIf (A1 := {Je} + (held b.b00 + L + (held s.J12 + held s.J21 + held s.J22 + held s.Je21 + F))) (by rw [h1, b1, b2, b3]; simp only [held]; abel)) ?_
    rintro _ _ rfl
    exact Sat.ret _ ⟨L, by simp only [owned, held]; abel, h2⟩

theorem Sat.gradients {deletes : Bool} (xss : List (List Shape)) (hx : ∀ xs ∈ xss, Complete xs) {s : Members} {A F : Multiset ℕ} (h : A = owned s + F) :
    Sat (gradients deletes xss s) A fun s' A' => ∃ L, A' = owned s' + L + F ∧ Multiset.card L = (xss.map (lost deletes)).sum := by
  induction xss generalizing s A F with
  | nil => exact Sat.ret _ ⟨0, by rw [h]; simp, by simp⟩
  | cons xs xss ih =>
    unfold Memory.gradients
    refine Sat.andThen (Sat.gradient (hx xs (by simp)) h) ?_
    rintro s1 A1 ⟨L, h1, h2⟩
    refine (ih (fun ys hy => hx ys (by simp [hy])) (s := s1) (F := L + F) (by rw [h1]; abel)).mono ?_
    rintro s2 A2 ⟨L', k1, k2⟩
    exact ⟨L' + L, by rw [k1]; abel, by rw [Multiset.card_add, k2, h2]; simp; omega⟩

theorem Sat.destroy {s : Members} {A F : Multiset ℕ} (h : A = owned s + F) : Sat (destroy s) A fun _ A' => A' = F := by
  unfold Memory.destroy
  refine Sat.andThen (Sat.freeIf (A1 := held s.J12 + held s.J21 + held s.J22 + held s.Je + held s.Je21 + F) (by rw [h]; unfold owned; abel)) ?_
  rintro _ _ rfl
  refine Sat.andThen (Sat.freeIf (A1 := held s.J21 + held s.J22 + held s.Je + held s.Je21 + F) (by abel)) ?_
  rintro _ _ rfl
  refine Sat.andThen (Sat.freeIf (A1 := held s.J22 + held s.Je + held s.Je21 + F) (by abel)) ?_
  rintro _ _ rfl
  refine Sat.andThen (Sat.freeIf (A1 := held s.Je + held s.Je21 + F) (by abel)) ?_
  rintro _ _ rfl
  refine Sat.andThen (Sat.freeIf (A1 := held s.Je21 + F) (by abel)) ?_
  rintro _ _ rfl
  exact Sat.freeIf rfl

/-- A run: any number of evaluations, each with the blocks Tribol happens to return, then the destruction of the module. -/
def life (deletes : Bool) (xss : List (List Shape)) : M Unit := andThen (gradients deletes xss {}) destroy

/-- **C100, safe and count.**  Nothing is freed twice or used after it is freed, what existed before remains, and what remains besides are the lost matrices. -/
theorem C100_count (deletes : Bool) (xss : List (List Shape)) (hx : ∀ xs ∈ xss, Complete xs) (h : Heap) :
    ∃ (h' : Heap) (L : Multiset ℕ), life deletes xss h = some ((), h') ∧ h'.live = L + h.live ∧ Multiset.card L = (xss.map (lost deletes)).sum := by
  have key : Sat (life deletes xss) h.live fun _ A' => ∃ L, A' = L + h.live ∧ Multiset.card L = (xss.map (lost deletes)).sum := by
    refine Sat.andThen (Sat.gradients xss hx (s := {}) (F := h.live) (by simp [owned, held])) ?_
    rintro s A ⟨L, h1, h2⟩
    exact (Sat.destroy (F := L + h.live) (by rw [h1]; abel)).mono fun _ A' e => ⟨L, e, h2⟩
  obtain ⟨_, h', h1, L, h2, h3⟩ := key h rfl
  exact ⟨h', L, h1, h2, h3⟩

theorem lost_eq_zero (deletes : Bool) (xs : List Shape) : lost deletes xs = 0 ↔ xs = [] := by
  constructor
  · intro h
    cases xs with
    | nil => rfl
    | cons x xs =>
      exfalso
      unfold lost at h
      have hm : multipliers (x :: xs) = 0 := by omega
      have hp : parts (x :: xs) = 0 := by
        by_contra hne
        rw [if_neg hne] at h
        omega
      simp only [multipliers, parts, List.map_cons, List.sum_cons] at hm hp
      cases hl : x.lm <;> simp [hl] at hm hp
  · rintro rfl
    cases deletes <;> simp [lost, multipliers, parts]

/-- **C100, wrong.**  A run leaves memory as it found it exactly if no evaluation had an interaction; every evaluation with one loses at least one matrix. -/
theorem C100_leak_wrong (deletes : Bool) (xss : List (List Shape)) (hx : ∀ xs ∈ xss, Complete xs) (h h' : Heap) (hr : life deletes xss h = some ((), h')) :
    (h'.live = h.live ↔ ∀ xs ∈ xss, xs = []) ∧ Multiset.card h.live + (xss.filter fun xs => xs ≠ []).length ≤ Multiset.card h'.live := by
  obtain ⟨h'', L, h1, h2, h3⟩ := C100_count deletes xss hx h
  obtain rfl : h'' = h' := by
    rw [hr] at h1
    exact (congrArg Prod.snd (Option.some.inj h1)).symm
  have hle : ∀ xss : List (List Shape), (xss.filter fun xs => xs ≠ []).length ≤ (xss.map (lost deletes)).sum := by
    intro xss
    induction xss with
    | nil => simp
    | cons xs xss ih =>
      by_cases he : xs = []
      · simp [he] at ih ⊢
        omega
      · have : lost deletes xs ≠ 0 := fun h0 => he ((lost_eq_zero _ _).1 h0)
        simp [he] at ih ⊢
        omega
  refine ⟨⟨fun e xs hxs => ?_, fun hall => ?_⟩, ?_⟩
  · rw [h2] at e
    have hL : L = 0 := by simpa using e
    rw [hL] at h3
    have := List.sum_eq_zero_iff.1 h3.symm (lost deletes xs) (List.mem_map.2 ⟨xs, hxs, rfl⟩)
    exact (lost_eq_zero _ _).1 this
  · have hz : (xss.map (lost deletes)).sum = 0 := by
      refine List.sum_eq_zero_iff.2 fun n hn => ?_
      obtain ⟨xs, hxs, rfl⟩ := List.mem_map.1 hn
      exact (lost_eq_zero _ _).2 (hall xs hxs)
    rw [hz] at h3
    rw [h2, Multiset.card_eq_zero.1 h3, zero_add]
  · rw [h2, Multiset.card_add, h3]
    have := hle xss
    omega

/-! ## Interactions without a block of constraints -/

theorem andThen_some {α β : Type} {m : M α} {f : α → M β} {h : Heap} {r : β × Heap} (e : andThen m f h = some r) : ∃ a h', m h = some (a, h') ∧ f a h' = some r := by
  unfold Memory.andThen at e
  cases hm : m h with
  | none => rw [hm] at e; cases e
  | some q => rw [hm] at e; exact ⟨q.1, q.2, rfl, e⟩

theorem jacobian_none {x : Shape} (hx : x.has10 = false) {h h' : Heap} {J : Blocks} (e : jacobian x h = some (J, h')) : J.b10 = none := by
  unfold Memory.jacobian at e
  obtain ⟨a, h1, -, e⟩ := andThen_some e
  obtain ⟨b, h2, e2, e⟩ := andThen_some e
  obtain ⟨c, h3, -, e⟩ := andThen_some e
  obtain ⟨d, h4, -, e⟩ := andThen_some e
  rw [hx] at e2
  have hb : none = b := congrArg Prod.fst (Option.some.inj e2)
  have hJ : (⟨a, b, c, d⟩ : Blocks) = J := congrArg Prod.fst (Option.some.inj e)
  rw [← hJ, ← hb]

theorem constraint_junk {deletes : Bool} {x : Shape} {J b : Blocks} (hJ : J.b10 = none) {h h' : Heap} {r : Blocks × Entry} (e : constraint deletes x J b h = some (r, h')) : r.2 = .junk := by
  unfold Memory.constraint at e
  rw [hJ] at e
  have : (b, Entry.junk) = r := congrArg Prod.fst (Option.some.inj e)
  rw [← this]

theorem mergeLoop_junk {deletes : Bool} (xs : List Shape) {b : Blocks} {es : List Entry} {h h' : Heap} {r : Blocks × List Entry} (e : mergeLoop deletes xs b es h = some (r, h')) :
    (Entry.junk ∈ es ∨ ∃ x ∈ xs, x.has10 = false) → Entry.junk ∈ r.2 := by
  induction xs generalizing b es h with
  | nil =>
    have : (b, es) = r := congrArg Prod.fst (Option.some.inj e)
    rw [← this]
    rintro (h | ⟨x, hx, -⟩)
    · exact h
    · cases hx
  | cons x xs ih =>
    unfold Memory.mergeLoop at e
    obtain ⟨J, h1, e1, e4⟩ := andThen_some e
    obtain ⟨b1, h2, -, e5⟩ := andThen_some e4
    obtain ⟨r1, h3, e3, e6⟩ := andThen_some e5
    rintro (hj | ⟨y, hy, h10⟩)
    · exact ih e6 (Or.inl (by simp [hj]))
    · rcases List.mem_cons.1 hy with rfl | hy
      · exact ih e6 (Or.inl (by simp [constraint_junk (jacobian_none h10 e1) e3]))
      · exact ih e6 (Or.inr ⟨y, hy, h10⟩)

theorem readAll_junk {es : List Entry} (hj : Entry.junk ∈ es) (h : Heap) : readAll es h = none := by
  induction es with
  | nil => cases hj
  | cons e es ih =>
    cases e with
    | junk => rfl
    | null => exact ih (by simpa using hj)
    | ptr p =>
      cases hr : readAll (Entry.ptr p :: es) h with
      | none => rfl
      | some r =>
        unfold Memory.readAll at hr
        obtain ⟨a, h1, e1, e2⟩ := andThen_some hr
        unfold Memory.use at e1
        split at e1
        · have : h = h1 := congrArg Prod.snd (Option.some.inj e1)
          rw [← this, ih (by simpa using hj)] at e2
          cases e2
        · cases e1

/-- **C100, undefined.**  If one interaction has multipliers and Tribol returns no block of constraints for one of the interactions, a pointer that was never written is read. -/
theorem C100_unwritten_wrong (deletes : Bool) (xs : List Shape) (s : Members) (h : Heap) (hm : ∃ x ∈ xs, x.lm = true) (h10 : ∃ x ∈ xs, x.has10 = false) :
    gradient deletes xs s h = none := by
  cases hr : gradient deletes xs s h with
  | none => rfl
  | some r =>
    exfalso
    unfold Memory.gradient at hr
    obtain ⟨_, _, -, hr⟩ := andThen_some hr
    obtain ⟨_, _, -, hr⟩ := andThen_some hr
    obtain ⟨b, h1, e, -⟩ := andThen_some hr
    unfold Memory.jacobianFunction at e
    obtain ⟨b1, h2, e, -⟩ := andThen_some e
    unfold Memory.mergedJacobian at e
    obtain ⟨r1, h3, e1, e⟩ := andThen_some e
    have hh : haveMultipliers xs = true := by
      obtain ⟨x, hx, hl⟩ := hm
      exact List.any_eq_true.2 ⟨x, hx, hl⟩
    simp only [hh, if_true] at e
    obtain ⟨_, _, e2, -⟩ := andThen_some e
    rw [readAll_junk (mergeLoop_junk xs e1 (Or.inr h10))] at e2
    cases e2

/-! ## Examples -/

/-- Two interactions, one with multipliers and one with a penalty. -/
def pair : List Shape := [⟨true, false, true, true, true⟩, ⟨false, true, true, true, false⟩]

/-- Ten evaluations lose twenty matrices, forty with a version of mfem that does not delete replaced blocks. -/
example : (∀ xs ∈ List.replicate 10 pair, Complete xs) ∧ ((List.replicate 10 pair).map (lost true)).sum = 20 ∧ ((List.replicate 10 pair).map (lost false)).sum = 40 := by
  refine ⟨fun xs hxs => ?_, by simp [pair, lost, multipliers, parts], by simp [pair, lost, multipliers, parts]⟩
  rw [List.eq_of_mem_replicate hxs]
  simp [Complete, pair]

end Serac.C100
