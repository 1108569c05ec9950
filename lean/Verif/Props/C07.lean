import Verif.Proofs.Restriction
import Verif.Props.C06
import Mathlib.Tactic.IntervalCases
/-!
# C07: Gather and ScatterAdd are exact transposes
-/

namespace Serac.C07
open ElementRestriction

/-- All dof numbers in the table fit in the L-vector. -/
def InBounds (r : ElementRestriction) : Prop :=
  ∀ i < r.numElements, ∀ c < r.components, ∀ j < r.nodesPerElem, r.vdof i j c < r.lsize

/-- Inner product of the first `n` entries. -/
def dot {R : Type} [CommRing R] (n : Nat) (u v : Nat → R) : R := ∑ k ∈ Finset.range n, u k * v k

/-- Position of (element, component, node) in the E-vector. -/
def epos (r : ElementRestriction) (i c j : Nat) : Nat := (i * r.components + c) * r.nodesPerElem + j

variable {R : Type}

private theorem bounds_mem {r : ElementRestriction} (h : InBounds r) : ∀ el ∈ r.loopIds, el.2 < r.lsize := by
  intro el hel
  obtain ⟨i, hi, c, hc, j, hj, rfl⟩ := mem_loopIds.mp hel
  exact h i hi c hc j hj

/-- **C07, Gather.**  Each element entry is the value of its dof; nothing beyond the E-vector is written. -/
theorem C07_gather (r : ElementRestriction) (h : InBounds r) (L E : Vec R) (hL : L.size = r.lsize)
    (hE : E.size = r.esize) :
    ∃ G, r.gather L E = some G ∧ G.size = r.esize ∧
      ∀ i < r.numElements, ∀ c < r.components, ∀ j < r.nodesPerElem,
        G.val (epos r i c j) = L.val (r.vdof i j c) := by
  obtain ⟨G, h1, h2, -, h4⟩ := gather_fold r.loopIds L E (by rw [hL]; exact bounds_mem h)
    (by rw [hE]; exact fun el hel => mem_loopIds_lt hel)
  refine ⟨G, h1, h2.trans hE, fun i hi c hc j hj => ?_⟩
  exact h4 r.loopIds_nodup _ (mem_loopIds.mpr ⟨i, hi, c, hc, j, hj, rfl⟩)

/-- **C07, ScatterAdd.**  Every L-entry is its old value plus the sum of all element entries attached to it: it
accumulates, from any number of elements, and leaves unattached entries alone. -/
theorem C07_scatterAdd [AddCommMonoid R] (r : ElementRestriction) (h : InBounds r) (E L : Vec R)
    (hL : L.size = r.lsize) (hE : E.size = r.esize) :
    ∃ S, r.scatterAdd E L = some S ∧ S.size = r.lsize ∧
      ∀ k, S.val k = L.val k +
        ∑ i ∈ Finset.range r.numElements, ∑ c ∈ Finset.range r.components, ∑ j ∈ Finset.range r.nodesPerElem,
          if r.vdof i j c = k then E.val (epos r i c j) else 0 := by
  obtain ⟨S, h1, h2, h3⟩ := scatter_fold r.loopIds E L (by rw [hL]; exact bounds_mem h)
    (by rw [hE]; exact fun el hel => mem_loopIds_lt hel)
  refine ⟨S, h1, h2.trans hL, fun k => ?_⟩
  rw [h3 k, sum_loopIds r (fun e l => if l = k then E.val e else 0)]
  rfl

/-- **C07, transpose.**  `<Gather x, y> = <x, ScatterAdd y>` for every x and y. -/
theorem C07_transpose [CommRing R] (r : ElementRestriction) (h : InBounds r) (x : Vec R) (y E0 : Vec R)
    (hx : x.size = r.lsize) (hy : y.size = r.esize) (hE : E0.size = r.esize) :
    ∃ G S, r.gather x E0 = some G ∧ r.scatterAdd y ⟨r.lsize, fun _ => 0⟩ = some S ∧
      dot r.esize G.val y.val = dot r.lsize x.val S.val := by
  obtain ⟨G, g1, -, -, g4⟩ := gather_fold r.loopIds x E0 (by rw [hx]; exact bounds_mem h)
    (by rw [hE]; exact fun el hel => mem_loopIds_lt hel)
  obtain ⟨S, s1, -, s3⟩ := scatter_fold r.loopIds y (⟨r.lsize, fun _ => 0⟩ : Vec R) (bounds_mem h)
    (by rw [hy]; exact fun el hel => mem_loopIds_lt hel)
  refine ⟨G, S, g1, s1, ?_⟩
  have lhs : dot r.esize G.val y.val = (r.loopIds.map fun el => x.val el.2 * y.val el.1).sum := by
    unfold dot
    rw [← sum_map_range, ← loopIds_fst, List.map_map]
    apply congrArg
    apply List.map_congr_left
    intro el hel
    simp only [Function.comp]
    rw [g4 r.loopIds_nodup el hel]
  rw [lhs, ← transpose_sum r.loopIds r.lsize x.val y.val (bounds_mem h)]
  unfold dot
  apply Finset.sum_congr rfl
  intro k _
  rw [s3 k]; simp

/-- **C07.**  A dof number outside the L-vector is an out-of-range access (undefined behaviour in the code), never a
silently wrong value. -/
theorem C07_out_of_range (r : ElementRestriction) (L E : Vec R) (hL : L.size = r.lsize) (h : ¬ InBounds r) :
    r.gather L E = none := by
  apply gather_fold_none
  unfold InBounds at h
  push Not at h
  obtain ⟨i, hi, c, hc, j, hj, hbad⟩ := h
  exact ⟨_, mem_loopIds.mpr ⟨i, hi, c, hc, j, hj, rfl⟩, by simp only; omega⟩

/-- **C07.**  Gathering and scattering back multiplies each dof by the number of element slots attached to it. -/
theorem C07_multiplicity [CommRing R] (r : ElementRestriction) (h : InBounds r) (x E0 : Vec R)
    (hx : x.size = r.lsize) (hE : E0.size = r.esize) :
    ∃ G S, r.gather x E0 = some G ∧ r.scatterAdd G ⟨r.lsize, fun _ => 0⟩ = some S ∧
      ∀ k, S.val k = (r.loopIds.countP fun el => el.2 = k) • x.val k := by
  obtain ⟨G, g1, g2, -, g4⟩ := gather_fold r.loopIds x E0 (by rw [hx]; exact bounds_mem h)
    (by rw [hE]; exact fun el hel => mem_loopIds_lt hel)
  obtain ⟨S, s1, -, s3⟩ := scatter_fold r.loopIds G (⟨r.lsize, fun _ => 0⟩ : Vec R) (bounds_mem h)
    (by rw [g2, hE]; exact fun el hel => mem_loopIds_lt hel)
  refine ⟨G, S, g1, s1, fun k => ?_⟩
  rw [s3 k]
  have : (r.loopIds.map fun el => if el.2 = k then G.val el.1 else 0)
      = r.loopIds.map fun el => if el.2 = k then x.val k else 0 := by
    apply List.map_congr_left
    intro el hel
    by_cases hk : el.2 = k
    · simp only [hk, if_true]; rw [g4 r.loopIds_nodup el hel, hk]
    · simp [hk]
  rw [this]
  simp only [zero_add]
  generalize r.loopIds = l
  induction l with
  | nil => simp
  | cons a l ih =>
    simp only [List.map_cons, List.sum_cons, ih]
    by_cases hk : a.2 = k
    · simp [hk]; ring
    · simp [hk]

/-- **C07.**  The E-vector positions used are exactly `0 .. ESize-1`, each once. -/
theorem C07_positions (r : ElementRestriction) (e : Nat) :
    e < r.esize ↔ ∃ i < r.numElements, ∃ c < r.components, ∃ j < r.nodesPerElem, epos r i c j = e := by
  rw [← List.mem_range, ← loopIds_fst, List.mem_map]
  constructor
  · rintro ⟨el, hel, rfl⟩
    obtain ⟨i, hi, c, hc, j, hj, rfl⟩ := mem_loopIds.mp hel
    exact ⟨i, hi, c, hc, j, hj, rfl⟩
  · rintro ⟨i, hi, c, hc, j, hj, rfl⟩
    exact ⟨_, mem_loopIds.mpr ⟨i, hi, c, hc, j, hj, rfl⟩, rfl⟩

/-- The bounds hypothesis holds for every restriction built from a space whose scalar dof numbers are valid nodes. -/
theorem inBounds_of_nodes (r : ElementRestriction) (hl : r.lsize = r.numNodes * r.components)
    (hsz : r.lsize ≤ 2 ^ 32)
    (hd : ∀ i < r.numElements, ∀ j < r.nodesPerElem, (r.dofInfo i j).pos < r.numNodes) : InBounds r := by
  intro i hi c hc j hj
  unfold ElementRestriction.vdof
  rw [C06.C06_position r _ c (hd i hi j hj) hc (by omega), hl]
  exact (C06.C06_bijection r.ordering r.numNodes r.components).1 _ _ (hd i hi j hj) hc

/-- Two one-dimensional elements sharing a node: 3 dofs, elements {0,1} and {1,2}. -/
def sample : ElementRestriction := ElementRestriction.build .byNODES 3 1 2 2 (fun i j => DoF.mk3 (BitVec.ofNat 64 (i + j)) 0 0)

example : InBounds sample := by
  intro i hi c hc j hj
  have hi' : i < 2 := hi
  have hc' : c < 1 := hc
  have hj' : j < 2 := hj
  interval_cases i <;> interval_cases c <;> interval_cases j <;> decide

end Serac.C07
