import Verif.Model.Restriction
import Verif.Props.C01
import Mathlib.Algebra.BigOperators.Group.Finset.Basic
import Mathlib.Algebra.BigOperators.Ring.Finset
import Mathlib.Algebra.BigOperators.Intervals
import Mathlib.Tactic.Ring
import Mathlib.Tactic.Linarith
/-! Helper lemmas about the restriction loops. -/

namespace Serac

theorem sum_map_range {M : Type} [AddCommMonoid M] (n : Nat) (f : Nat → M) :
    ((List.range n).map f).sum = ∑ i ∈ Finset.range n, f i := rfl

theorem sum_flatMap' {M α : Type} [AddCommMonoid M] (l : List α) (f : α → List M) :
    (l.flatMap f).sum = (l.map fun a => (f a).sum).sum := by
  induction l with
  | nil => rfl
  | cons a l ih => simp [List.flatMap_cons, List.sum_append, ih]

theorem range_mul_eq (a b : Nat) :
    (List.range a).flatMap (fun i => (List.range b).map fun j => i * b + j) = List.range (a * b) := by
  induction a with
  | zero => simp
  | succ a ih =>
    rw [List.range_succ, List.flatMap_append, ih, Nat.succ_mul, List.range_add]
    simp

namespace ElementRestriction

theorem loopIds_fst (r : ElementRestriction) : r.loopIds.map Prod.fst = List.range r.esize := by
  have h1 : r.loopIds.map Prod.fst =
      (List.range r.numElements).flatMap fun i =>
        ((List.range r.components).map fun c => i * r.components + c).flatMap fun q =>
          (List.range r.nodesPerElem).map fun j => q * r.nodesPerElem + j := by
    simp only [loopIds, List.map_flatMap, List.map_map, List.flatMap_map]
    rfl
  rw [h1, ← List.flatMap_assoc, range_mul_eq, range_mul_eq, esize]
  congr 1; ring

theorem mem_loopIds {r : ElementRestriction} {el : Nat × Nat} :
    el ∈ r.loopIds ↔ ∃ i < r.numElements, ∃ c < r.components, ∃ j < r.nodesPerElem,
      el = ((i * r.components + c) * r.nodesPerElem + j, r.vdof i j c) := by
  simp only [loopIds, List.mem_flatMap, List.mem_range, List.mem_map]
  constructor
  · rintro ⟨i, hi, c, hc, j, hj, rfl⟩; exact ⟨i, hi, c, hc, j, hj, rfl⟩
  · rintro ⟨i, hi, c, hc, j, hj, rfl⟩; exact ⟨i, hi, c, hc, j, hj, rfl⟩

theorem mem_loopIds_lt {r : ElementRestriction} {el : Nat × Nat} (h : el ∈ r.loopIds) : el.1 < r.esize := by
  have : el.1 ∈ r.loopIds.map Prod.fst := List.mem_map_of_mem h
  rwa [loopIds_fst, List.mem_range] at this

theorem loopIds_nodup (r : ElementRestriction) : (r.loopIds.map Prod.fst).Nodup := by
  rw [loopIds_fst]; exact List.nodup_range

variable {R : Type}

theorem gather_fold (ids : List (Nat × Nat)) (L : Vec R) : ∀ (E : Vec R),
    (∀ el ∈ ids, el.2 < L.size) → (∀ el ∈ ids, el.1 < E.size) →
    ∃ E', ids.foldlM (fun E el => do let x ← L.get? el.2; E.set? el.1 x) E = some E' ∧ E'.size = E.size ∧
      (∀ k, k ∉ ids.map Prod.fst → E'.val k = E.val k) ∧
      ((ids.map Prod.fst).Nodup → ∀ el ∈ ids, E'.val el.1 = L.val el.2) := by
  induction ids with
  | nil => intro E _ _; exact ⟨E, rfl, rfl, by simp, by simp⟩
  | cons a ids ih =>
    intro E hL hE
    have ha := hL a (by simp)
    have ha' := hE a (by simp)
    obtain ⟨E', h1, h2, h3, h4⟩ := ih ⟨E.size, fun k => if k = a.1 then L.val a.2 else E.val k⟩
      (fun el h => hL el (List.mem_cons_of_mem _ h)) (fun el h => hE el (List.mem_cons_of_mem _ h))
    refine ⟨E', ?_, h2, ?_, ?_⟩
    · rw [List.foldlM_cons]
      simp only [Vec.get?, Vec.set?, ha, ha', if_true, Option.bind_eq_bind, Option.bind_some]
      exact h1
    · intro k hk
      simp only [List.map_cons, List.mem_cons, not_or] at hk
      rw [h3 k hk.2]; simp [hk.1]
    · intro hnd el hel
      simp only [List.map_cons, List.nodup_cons] at hnd
      rcases List.mem_cons.mp hel with rfl | hel
      · rw [h3 _ hnd.1]; simp
      · exact h4 hnd.2 el hel

theorem scatter_fold [AddCommMonoid R] (ids : List (Nat × Nat)) (E : Vec R) : ∀ (L : Vec R),
    (∀ el ∈ ids, el.2 < L.size) → (∀ el ∈ ids, el.1 < E.size) →
    ∃ L', ids.foldlM (fun L el => do let x ← E.get? el.1; let y ← L.get? el.2; L.set? el.2 (y + x)) L = some L' ∧
      L'.size = L.size ∧
      (∀ k, L'.val k = L.val k + (ids.map fun el => if el.2 = k then E.val el.1 else 0).sum) := by
  induction ids with
  | nil => intro L _ _; exact ⟨L, rfl, rfl, by simp⟩
  | cons a ids ih =>
    intro L hL hE
    have ha := hL a (by simp)
    have ha' := hE a (by simp)
    obtain ⟨L', h1, h2, h3⟩ := ih ⟨L.size, fun k => if k = a.2 then L.val a.2 + E.val a.1 else L.val k⟩
      (fun el h => hL el (List.mem_cons_of_mem _ h)) (fun el h => hE el (List.mem_cons_of_mem _ h))
    refine ⟨L', ?_, h2, ?_⟩
    · rw [List.foldlM_cons]
      simp only [Vec.get?, Vec.set?, ha, ha', if_true, Option.bind_eq_bind, Option.bind_some]
      exact h1
    · intro k
      rw [h3 k]
      simp only [List.map_cons, List.sum_cons]
      by_cases hk : a.2 = k
      · subst hk; simp [add_assoc]
      · simp [hk, Ne.symm hk]

theorem gather_fold_none (ids : List (Nat × Nat)) (L : Vec R) : ∀ (E : Vec R),
    (∃ el ∈ ids, ¬ el.2 < L.size) →
    ids.foldlM (fun E el => do let x ← L.get? el.2; E.set? el.1 x) E = none := by
  induction ids with
  | nil => rintro E ⟨el, h, -⟩; simp at h
  | cons a ids ih =>
    rintro E ⟨el, hel, hbad⟩
    rw [List.foldlM_cons]
    by_cases ha : a.2 < L.size
    · have hel' : el ∈ ids := by
        rcases List.mem_cons.mp hel with rfl | h
        · exact absurd ha hbad
        · exact h
      simp only [Vec.get?, Vec.set?, ha, if_true, Option.bind_eq_bind, Option.bind_some]
      split
      · exact ih _ ⟨el, hel', hbad⟩
      · rfl
    · simp [Vec.get?, ha]

theorem sum_loopIds {M : Type} [AddCommMonoid M] (r : ElementRestriction) (f : Nat → Nat → M) :
    (r.loopIds.map fun el => f el.1 el.2).sum =
      ∑ i ∈ Finset.range r.numElements, ∑ c ∈ Finset.range r.components, ∑ j ∈ Finset.range r.nodesPerElem,
        f ((i * r.components + c) * r.nodesPerElem + j) (r.vdof i j c) := by
  simp only [loopIds, List.map_flatMap, List.map_map, sum_flatMap', sum_map_range]
  rfl

theorem transpose_sum [CommRing R] (ids : List (Nat × Nat)) (n : Nat) (L Y : Nat → R)
    (h : ∀ el ∈ ids, el.2 < n) :
    ∑ k ∈ Finset.range n, L k * (ids.map fun el => if el.2 = k then Y el.1 else 0).sum
      = (ids.map fun el => L el.2 * Y el.1).sum := by
  induction ids with
  | nil => simp
  | cons a ids ih =>
    have ha := h a (by simp)
    simp only [List.map_cons, List.sum_cons, mul_add, Finset.sum_add_distrib]
    rw [ih fun el hel => h el (List.mem_cons_of_mem _ hel)]
    congr 1
    simp only [mul_ite, mul_zero]
    rw [Finset.sum_ite_eq]
    simp [ha]

end ElementRestriction
end Serac
