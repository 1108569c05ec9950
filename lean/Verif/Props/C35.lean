import Verif.Props.C34
import Mathlib.Tactic.Ring
import Mathlib.Tactic.NormNum
import Mathlib.Algebra.BigOperators.Ring.Finset
/-!
# C35: contact active set

Spec.  A dof of a frictionless interaction is inactive when its pressure is not compressive (`p ≥ 0`; compression is negative) and its gap is
open (`g ≥ -10⁻¹⁴`).  For each multiplier dof the linear system must contain the gap equation `B Δu = -g` when the dof is active and `Δp = 0`
when it is inactive.

The code puts the inactive dofs of *penalty* interactions into the identity block too, at the position of the next multiplier interaction.
The theorems about the identity block therefore need every penalty interaction with inactive dofs to come after all multiplier ones
(`_partial`); `C35_mixed_wrong` shows what happens otherwise.
-/

noncomputable section
namespace Serac.C35
open Serac.Contact Serac.C34

/-- `inactive_tdofs_` of tied interactions comes from `MarkerToList`: increasing, within the pressure space. -/
def TiedOk (x : Inter) : Prop := x.fixedInactive.Pairwise (· < ·) ∧ ∀ d ∈ x.fixedInactive, d < x.size

/-! ## The active set -/

/-- **C35, frictionless active set.** -/
theorem C35_active_set (x : Inter) (hf : x.frictionless = true) (d : ℕ) :
    d ∈ x.inactive ↔ d < x.size ∧ 0 ≤ x.p d ∧ -(1 / 10 ^ 14) ≤ x.g d := by
  simp [Inter.inactive, hf]

theorem inactive_sorted (x : Inter) (h : TiedOk x) : x.inactive.Pairwise (· < ·) ∧ ∀ d ∈ x.inactive, d < x.size := by
  unfold Inter.inactive
  split
  · refine ⟨List.Pairwise.filter _ List.pairwise_lt_range, fun d hd => ?_⟩
    exact List.mem_range.1 (List.mem_filter.1 hd).1
  · exact h

/-! ## The identity block -/

theorem filter_step (a : List ℕ) (ha : a.Pairwise (· < ·)) (k : ℕ) :
    a.filter (fun x => decide (k ≤ x)) = (if k ∈ a then [k] else []) ++ a.filter (fun x => decide (k + 1 ≤ x)) := by
  induction a with
  | nil => simp
  | cons y a iha =>
    have h1 := List.pairwise_cons.1 ha
    have h2 := iha h1.2
    rcases lt_trichotomy y k with hy | hy | hy
    · have hne : k ≠ y := by omega
      rw [List.filter_cons_of_neg (by simpa using hy), List.filter_cons_of_neg (by simp; omega), h2]
      simp [hne]
    · subst hy
      have hnot : y ∉ a := fun hm => by have := h1.1 y hm; omega
      rw [List.filter_cons_of_pos (by simp), List.filter_cons_of_neg (by simp), h2]
      simp [hnot]
    · have hnot : k ∉ a := fun hm => by have := h1.1 k hm; omega
      have hne : k ≠ y := by omega
      rw [List.filter_cons_of_pos (by simp; omega), List.filter_cons_of_pos (by simp; omega), h2]
      simp [hnot, hne]

theorem rows_drop (a b : List ℕ) (N : ℕ) (ha : a.Pairwise (· < ·)) (hb : ∀ x ∈ b, N ≤ x) (k : ℕ) (hk : k ≤ N) :
    (a ++ b).drop (rows (a ++ b) k) = a.filter (fun x => decide (k ≤ x)) ++ b := by
  induction k with
  | zero => simp [rows]
  | succ k ih =>
    have ih := ih (by omega)
    have hhead : (a ++ b)[rows (a ++ b) k]? = (a.filter (fun x => decide (k ≤ x)) ++ b).head? := by
      rw [← ih, List.head?_drop]
    rw [rows, hhead]
    have hfil := filter_step a ha k
    by_cases hmem : k ∈ a
    · rw [if_pos hmem] at hfil
      rw [hfil, if_pos (by simp), ← List.drop_drop, ih, hfil]
      simp
    · rw [if_neg hmem, List.nil_append] at hfil
      rw [hfil, if_neg, ih, hfil]
      intro h
      have hm := List.mem_of_mem_head? (Option.mem_def.2 h)
      rw [List.mem_append] at hm
      rcases hm with hm | hm
      · rw [List.mem_filter] at hm
        exact hmem hm.1
      · have := hb k hm
        omega

theorem rows_step (a b : List ℕ) (N : ℕ) (ha : a.Pairwise (· < ·)) (hb : ∀ x ∈ b, N ≤ x) (k : ℕ) (hk : k < N) :
    (a ++ b)[rows (a ++ b) k]? = some k ↔ k ∈ a := by
  have hhead : (a ++ b)[rows (a ++ b) k]? = (a.filter (fun x => decide (k ≤ x)) ++ b).head? := by
    rw [← rows_drop a b N ha hb k hk.le, List.head?_drop]
  rw [hhead]
  constructor
  · intro h
    have hm := List.mem_of_mem_head? (Option.mem_def.2 h)
    rw [List.mem_append] at hm
    rcases hm with hm | hm
    · exact (List.mem_filter.1 hm).1
    · have := hb k hm
      omega
  · intro h
    cases hf : a.filter (fun x => decide (k ≤ x)) with
    | nil =>
      have : k ∈ a.filter (fun x => decide (k ≤ x)) := List.mem_filter.2 ⟨h, by simp⟩
      rw [hf] at this
      simp at this
    | cons y l =>
      have hsort : (a.filter (fun x => decide (k ≤ x))).Pairwise (· < ·) := List.Pairwise.filter _ ha
      have hk' : k ∈ a.filter (fun x => decide (k ≤ x)) := List.mem_filter.2 ⟨h, by simp⟩
      rw [hf] at hsort hk'
      have hy : k ≤ y := by
        have : y ∈ a.filter (fun x => decide (k ≤ x)) := by rw [hf]; simp
        simpa using (List.mem_filter.1 this).2
      rw [List.mem_cons] at hk'
      rcases hk' with rfl | hk'
      · simp
      · have := (List.pairwise_cons.1 hsort).1 k hk'
        omega

/-- The CSR matrix built from a list that is increasing below `N`. -/
theorem inactiveDiag_eq (a b : List ℕ) (N : ℕ) (ha : a.Pairwise (· < ·)) (hb : ∀ x ∈ b, N ≤ x) (k l : ℕ) (hk : k < N) :
    inactiveDiag (a ++ b) k l = if k ∈ a ∧ l = k then 1 else 0 := by
  have hs := rows_step a b N ha hb k hk
  unfold inactiveDiag
  by_cases hmem : k ∈ a
  · have hs' := hs.2 hmem
    have e : rows (a ++ b) (k + 1) = rows (a ++ b) k + 1 := by rw [rows, if_pos hs']
    rw [e, Nat.Ico_succ_singleton, Finset.sum_singleton, hs']
    by_cases hl : l = k
    · rw [if_pos (by rw [hl]), if_pos ⟨hmem, hl⟩]
    · rw [if_neg (by intro h; exact hl (Option.some.inj h).symm), if_neg (by tauto)]
  · have e : rows (a ++ b) (k + 1) = rows (a ++ b) k := by rw [rows, if_neg (fun h => hmem (hs.1 h))]
    rw [e, Finset.Ico_self, Finset.sum_empty, if_neg (by tauto)]

/-! ## The list of inactive dofs -/

/-- Merged positions of the inactive multiplier dofs. -/
def inactivePos : List Inter → ℕ → List ℕ
  | [], _ => []
  | x :: xs, acc => (if x.lm then x.inactive.map (· + acc) else []) ++ inactivePos xs (acc + x.num)

theorem inactivePos_ge (xs : List Inter) (acc : ℕ) : ∀ k ∈ inactivePos xs acc, acc ≤ k := by
  induction xs generalizing acc with
  | nil => intro k hk; simp [inactivePos] at hk
  | cons x xs ih =>
    intro k hk
    rw [inactivePos, List.mem_append] at hk
    rcases hk with hk | hk
    · split at hk
      · rw [List.mem_map] at hk
        obtain ⟨d, -, rfl⟩ := hk
        omega
      · simp at hk
    · have := ih _ k hk
      omega

theorem inactivePos_sorted (xs : List Inter) (hT : ∀ x ∈ xs, TiedOk x) (acc : ℕ) : (inactivePos xs acc).Pairwise (· < ·) := by
  induction xs generalizing acc with
  | nil => exact List.Pairwise.nil
  | cons x xs ih =>
    rw [inactivePos]
    have hx := inactive_sorted x (hT x (by simp))
    refine List.pairwise_append.2 ⟨?_, ih (fun y hy => hT y (by simp [hy])) _, ?_⟩
    · split
      · exact List.Pairwise.map _ (fun a b h => by omega) hx.1
      · exact List.Pairwise.nil
    · intro m hm n hn
      have h2 := inactivePos_ge xs _ n hn
      split at hm
      · rename_i hl
        rw [List.mem_map] at hm
        obtain ⟨d, hd, rfl⟩ := hm
        have := hx.2 d hd
        simp only [Inter.num, hl, if_true] at h2
        omega
      · simp at hm

theorem mem_inactivePos (pre : List Inter) (x : Inter) (post : List Inter) (hT : ∀ y ∈ pre ++ x :: post, TiedOk y) (hx : x.lm = true) (acc d : ℕ)
    (hd : d < x.size) : acc + base pre + d ∈ inactivePos (pre ++ x :: post) acc ↔ d ∈ x.inactive := by
  induction pre generalizing acc with
  | nil =>
    rw [List.nil_append, inactivePos, List.mem_append, if_pos hx]
    constructor
    · rintro (h | h)
      · rw [List.mem_map] at h
        obtain ⟨e, he, h2⟩ := h
        have : e = d := by simp [base] at h2; omega
        rw [← this]
        exact he
      · have := inactivePos_ge _ _ _ h
        simp [base, Inter.num, hx] at this
        omega
    · intro h
      left
      exact List.mem_map.2 ⟨d, h, by simp [base]; omega⟩
  | cons y pre ih =>
    rw [List.cons_append, inactivePos, List.mem_append, base_cons]
    have := ih (fun z hz => hT z (by simp at hz ⊢; tauto)) (acc + y.num)
    rw [← this]
    constructor
    · rintro (h | h)
      · exfalso
        split at h
        · rename_i hl
          rw [List.mem_map] at h
          obtain ⟨e, he, h2⟩ := h
          have := (inactive_sorted y (hT y (by simp))).2 e he
          simp only [Inter.num, hl, if_true] at h2
          omega
        · simp at h
      · rw [← Nat.add_assoc] at h
        exact h
    · intro h
      right
      rw [← Nat.add_assoc]
      exact h

/-- What the code collects, when penalty interactions in the list have no inactive dofs. -/
theorem inactiveTdofs_front (off : List ℕ) (all pre xs post : List Inter) (hall : all = pre ++ (xs ++ post)) (hoff : OffOk off all)
    (hxs : ∀ x ∈ xs, x.lm = true ∨ x.inactive = []) :
    inactiveTdofs off (xs ++ post) pre.length = (inactiveTdofs off post (pre.length + xs.length)).map fun r => inactivePos xs (base pre) ++ r := by
  induction xs generalizing pre with
  | nil => simp [inactivePos]
  | cons x xs ih =>
    have h := ih (pre ++ [x]) (by simp [hall]) fun y hy => hxs y (by simp [hy])
    rw [List.length_append, List.length_singleton, base_append] at h
    have e : pre.length + 1 + xs.length = pre.length + (xs.length + 1) := by omega
    rw [List.cons_append, inactiveTdofs, h, List.length_cons, e, inactivePos]
    have hb : base [x] = x.num := by simp [base, Inter.num]
    rw [hb]
    by_cases hi : x.inactive = []
    · rw [if_pos hi]
      simp [hi, Function.comp_def]
    · have hl : x.lm = true := by
        rcases hxs x (by simp) with h | h
        · exact h
        · exact absurd h hi
      obtain ⟨h1, -⟩ := hoff pre (xs ++ post) x (by rw [hall]; simp) hl
      rw [if_neg hi, h1, if_pos hl]
      simp [Function.comp_def]

theorem inactiveTdofs_back (off : List ℕ) (N : ℕ) (xs : List Inter) (i : ℕ) (r : List ℕ) (h : inactiveTdofs off xs i = some r)
    (hoff : ∀ j a, i ≤ j → off[j]? = some a → N ≤ a) : ∀ k ∈ r, N ≤ k := by
  induction xs generalizing i r with
  | nil =>
    cases h
    intro k hk
    simp at hk
  | cons x xs ih =>
    rw [inactiveTdofs] at h
    cases hr : inactiveTdofs off xs (i + 1) with
    | none =>
      rw [hr] at h
      simp at h
    | some rest =>
      rw [hr] at h
      have h2 := ih (i + 1) rest hr fun j a hj => hoff j a (by omega)
      split at h
      · simp at h
        rw [← h]
        exact h2
      · cases ha : off[i]? with
        | none =>
          rw [ha] at h
          simp at h
        | some a =>
          rw [ha] at h
          simp at h
          rw [← h]
          intro k hk
          rw [List.mem_append, List.mem_map] at hk
          rcases hk with ⟨d, -, rfl⟩ | hk
          · have := hoff i a le_rfl ha
            omega
          · exact h2 k hk

/-- Recorded offsets past the last multiplier interaction equal the total. -/
theorem offsets_tail {s : Data} (h : Inv s) (A P : List Inter) (hs : s.inters = A ++ P) (j a : ℕ) (hj : A.length ≤ j)
    (ha : s.refresh.offsets[j]? = some a) : base A ≤ a := by
  have key : ∀ (xs : List Inter) (m acc : ℕ) (a : ℕ), (scan xs acc)[m]? = some a → a = acc + base (xs.take m) := by
    intro xs
    induction xs with
    | nil =>
      intro m acc a h
      cases m with
      | zero => simp [scan] at h; simp [base, h]
      | succ m => simp [scan] at h
    | cons x xs ih =>
      intro m acc a h
      cases m with
      | zero => simp [scan] at h; simp [base, h]
      | succ m =>
        rw [scan, List.getElem?_cons_succ] at h
        rw [ih m _ a h, List.take_succ_cons, base_cons]
        omega
  unfold Data.refresh at ha
  split at ha
  · rename_i hu
    obtain ⟨pre, post, h1, h2, h3⟩ := h.fresh hu
    rw [h2] at ha
    have e := key pre j 0 a ha
    rw [Nat.zero_add] at e
    have hjl : j ≤ pre.length := by
      have := (List.getElem?_eq_some_iff.1 ha).1
      rw [scan_length] at this
      omega
    have htake : pre.take j = A ++ (P.take (j - A.length)) := by
      have : s.inters.take j = pre.take j := by rw [h1, List.take_append_of_le_length hjl]
      rw [← this, hs, List.take_append, List.take_of_length_le hj]
    rw [e, htake, base_append]
    omega
  · have e := key _ j 0 a ha
    rw [e, hs, List.take_append, List.take_of_length_le hj, base_append]
    omega

/-! ## Theorems -/

theorem stack_eq (pre : List Inter) (x : Inter) (post : List Inter) (hx : x.lm = true) (d j : ℕ) (hd : d < x.size) :
    stack (pre ++ x :: post) (base pre + d) j = x.activeB d j := by
  induction pre with
  | nil => simp [stack, hx, base, hd]
  | cons y pre ih =>
    rw [List.cons_append, stack, base_cons]
    by_cases hy : y.lm = true
    · have : y.num = y.size := by simp [Inter.num, hy]
      rw [if_pos hy, if_neg (by omega), ← ih]
      congr 1
      omega
    · have : y.num = 0 := by simp [Inter.num, hy]
      rw [if_neg hy, this, Nat.zero_add, ih]

/-- **C35, gap rows.**  Whatever interactions there are: the residual and the coupling block of a multiplier dof come from its own
interaction only; they are the gap and the gap derivative if it is active and zero if it is inactive.  The force block is the transpose. -/
theorem C35_gap_rows (ops : List Op) (b : Blocks) (g junk : ℕ → ℝ) : let s := Data.run ops
    mergedJacobian s = some b → mergedGaps s true junk = some g →
    ∀ (pre : List Inter) (x : Inter) (post : List Inter) (d : ℕ), s.inters = pre ++ x :: post → x.lm = true → d < x.size →
      g (base pre + d) = (if d ∈ x.inactive then 0 else x.g d) ∧
      (∀ j, b.J10 (base pre + d) j = if d ∈ x.inactive then 0 else x.B d j) ∧ ∀ k j, b.J01 j k = b.J10 k j := by
  intro s hb hg pre x post d hs hx hd
  obtain ⟨t, -, rfl⟩ := Option.map_eq_some_iff.1 hb
  obtain ⟨g', hg', hk⟩ := mergeLoop_spec s.refresh.offsets (fun x => x.zeroedGap true) s.inters [] s.inters rfl
    (fun pre post x => offsets_ok (inv_run ops) pre post x) junk
  have e : g = g' := by
    have : mergeLoop s.refresh.offsets (fun x => x.zeroedGap true) s.inters 0 junk = some g := hg
    rw [show mergeLoop s.refresh.offsets (fun x => x.zeroedGap true) s.inters 0 junk = some g' from hg'] at this
    exact (Option.some.inj this).symm
  refine ⟨?_, ?_, fun _ _ => rfl⟩
  · have hb0 : base ([] : List Inter) = 0 := rfl
    rw [e, hk, hb0, if_pos]
    · rw [hs, Nat.sub_zero]
      have hf : flat (fun x => x.zeroedGap true) (pre ++ x :: post) = flat (fun x => x.zeroedGap true) pre ++
          ((List.range x.size).map (x.zeroedGap true) ++ flat (fun x => x.zeroedGap true) post) := by simp [flat, hx]
      rw [hf, List.getD_eq_getElem?_getD, List.getElem?_append_right (by rw [flat_length]; omega), flat_length, Nat.add_sub_cancel_left,
        List.getElem?_append_left (by simpa using hd), List.getElem?_map, List.getElem?_range hd]
      simp [Inter.zeroedGap]
    · refine ⟨Nat.zero_le _, ?_⟩
      rw [hs, base_append, base_cons]
      simp only [Inter.num, hx, if_true]
      omega
  · intro j
    dsimp only
    rw [hs, stack_eq pre x post hx d j hd]
    rfl

/-- The identity block of any state with valid offsets. -/
theorem identity_block {s : Data} (hinv : Inv s) (b : Blocks) (A P : List Inter) :
    mergedJacobian s = some b → s.inters = A ++ P → (∀ x ∈ A, x.lm = true ∨ x.inactive = []) → (∀ x ∈ P, x.lm = false) →
    (∀ x ∈ s.inters, TiedOk x) →
    ∀ (pre : List Inter) (x : Inter) (post : List Inter) (d l : ℕ), s.inters = pre ++ x :: post → x.lm = true → d < x.size →
      b.J11 (base pre + d) l = if d ∈ x.inactive ∧ l = base pre + d then 1 else 0 := by
  intro hb hs hA hP hT pre x post d l hpre hx hd
  obtain ⟨t, ht, rfl⟩ := Option.map_eq_some_iff.1 hb
  have hfront := inactiveTdofs_front s.refresh.offsets s.inters [] A P (by rw [hs]; rfl) (fun pre post x => offsets_ok hinv pre post x) hA
  rw [hs] at ht
  rw [show inactiveTdofs s.refresh.offsets (A ++ P) 0 = _ from hfront] at ht
  obtain ⟨r, hr, rfl⟩ := Option.map_eq_some_iff.1 ht
  have hback := inactiveTdofs_back s.refresh.offsets (base A) P _ r hr fun j a hj ha =>
    offsets_tail hinv A P hs j a (by simpa using hj) ha
  have hAT : ∀ y ∈ A, TiedOk y := fun y hy => hT y (by rw [hs]; simp [hy])
  have hsorted := inactivePos_sorted A hAT (base [])
  -- `x` lies in the first part
  obtain ⟨post', hA'⟩ : ∃ post', A = pre ++ x :: post' := by
    have hlen : pre.length < A.length := by
      by_contra hle
      push Not at hle
      have h1 : s.inters[pre.length]? = some x := by rw [hpre]; simp
      rw [hs, List.getElem?_append_right hle] at h1
      have := hP x (List.mem_of_getElem? h1)
      rw [hx] at this
      cases this
    refine ⟨A.drop (pre.length + 1), ?_⟩
    have e1 : A.take (pre.length + 1) = pre ++ [x] := by
      have : (s.inters).take (pre.length + 1) = pre ++ [x] := by rw [hpre]; simp [List.take_append]
      rw [hs, List.take_append_of_le_length (by omega)] at this
      exact this
    conv_lhs => rw [← List.take_append_drop (pre.length + 1) A, e1]
    simp
  have hlt : base pre + d < base A := by
    rw [hA', base_append, base_cons]
    simp only [Inter.num, hx, if_true]
    omega
  dsimp only
  rw [inactiveDiag_eq _ _ (base A) hsorted hback _ _ hlt]
  have hm := mem_inactivePos pre x post' (by rw [← hA']; exact hAT) hx (base []) d hd
  have hb0 : base ([] : List Inter) = 0 := rfl
  rw [hb0, Nat.zero_add, ← hA'] at hm
  rw [hb0]
  simp only [hm]

/-- **C35, identity block** (partial: penalty interactions with inactive dofs, if any, come after all multiplier interactions): the row of a
multiplier dof is that of the identity if the dof is inactive, and zero if it is active. -/
theorem C35_identity_partial (ops : List Op) (b : Blocks) (A P : List Inter) : let s := Data.run ops
    mergedJacobian s = some b → s.inters = A ++ P → (∀ x ∈ A, x.lm = true ∨ x.inactive = []) → (∀ x ∈ P, x.lm = false) →
    (∀ x ∈ s.inters, TiedOk x) →
    ∀ (pre : List Inter) (x : Inter) (post : List Inter) (d l : ℕ), s.inters = pre ++ x :: post → x.lm = true → d < x.size →
      b.J11 (base pre + d) l = if d ∈ x.inactive ∧ l = base pre + d then 1 else 0 :=
  fun hb hs hA hP hT => identity_block (inv_run ops) b A P hb hs hA hP hT

/-- **C35, the linear system** (partial as before).  For every correction `(Δu, Δp)`, row `base pre + d` of `J Δ = -r` says `Δp = 0` if the dof is
inactive and `B Δu = -g` if it is active. -/
theorem C35_system_partial (ops : List Op) (b : Blocks) (A P : List Inter) (g junk du dp : ℕ → ℝ) (n : ℕ) : let s := Data.run ops
    mergedJacobian s = some b → mergedGaps s true junk = some g → s.inters = A ++ P → (∀ x ∈ A, x.lm = true ∨ x.inactive = []) →
    (∀ x ∈ P, x.lm = false) → (∀ x ∈ s.inters, TiedOk x) →
    ∀ (pre : List Inter) (x : Inter) (post : List Inter) (d : ℕ), s.inters = pre ++ x :: post → x.lm = true → d < x.size →
      ((∑ j ∈ Finset.range n, b.J10 (base pre + d) j * du j) + (∑ l ∈ Finset.range s.numDofs, b.J11 (base pre + d) l * dp l) = -g (base pre + d) ↔
        if d ∈ x.inactive then dp (base pre + d) = 0 else (∑ j ∈ Finset.range n, x.B d j * du j) = -x.g d) := by
  intro s hb hg hs hA hP hT pre x post d hpre hx hd
  obtain ⟨h1, h2, -⟩ := C35_gap_rows ops b g junk hb hg pre x post d hpre hx hd
  have h3 := fun l => C35_identity_partial ops b A P hb hs hA hP hT pre x post d l hpre hx hd
  have hlt : base pre + d < s.numDofs := by
    rw [(inv_run ops).num]
    change _ < base s.inters
    rw [hpre, base_append, base_cons]
    simp only [Inter.num, hx, if_true]
    omega
  simp only [h1, h2, h3]
  by_cases hi : d ∈ x.inactive
  · simp [hi, hlt]
  · simp [hi]

/-- **C35, mixed interactions, refuted.**  If the first interaction is a penalty one whose dof 0 is inactive, the identity block has a one in the
first row whenever there are multipliers, whether or not the multiplier there is active. -/
theorem C35_mixed_wrong (ops : List Op) (b : Blocks) (y : Inter) (rest : List Inter) : let s := Data.run ops
    mergedJacobian s = some b → s.inters = y :: rest → y.lm = false → 0 ∈ y.inactive → TiedOk y → b.J11 0 0 = 1 := by
  intro s hb hs hy h0 hT
  obtain ⟨t, ht, rfl⟩ := Option.map_eq_some_iff.1 hb
  rw [hs, inactiveTdofs] at ht
  have hne : y.inactive ≠ [] := fun h => by rw [h] at h0; simp at h0
  rw [if_neg hne] at ht
  cases ho : s.refresh.offsets[0]? with
  | none =>
    rw [ho] at ht
    simp at ht
  | some a =>
    have ha : a = 0 := by
      unfold Data.refresh at ho
      split at ho
      · rename_i hu
        obtain ⟨pre, post, -, h2, -⟩ := (inv_run ops).fresh hu
        rw [h2] at ho
        cases pre <;> simp [scan] at ho <;> exact ho.symm
      · dsimp only at ho
        rw [hs] at ho
        simp [scan] at ho
        exact ho.symm
    rw [ho, ha] at ht
    simp only [Option.map_some, Option.bind_some] at ht
    obtain ⟨r, -, ht⟩ := Option.map_eq_some_iff.1 ht
    have hhead : t[0]? = some 0 := by
      rw [← ht]
      cases hl : y.inactive with
      | nil => exact absurd hl hne
      | cons z l =>
        have hsort := (inactive_sorted y hT).1
        rw [hl] at hsort h0
        have hz : z = 0 := by
          rw [List.mem_cons] at h0
          rcases h0 with h0 | h0
          · exact h0.symm
          · have := (List.pairwise_cons.1 hsort).1 0 h0
            omega
        simp [hz]
    dsimp only
    unfold inactiveDiag
    have e : rows t (0 + 1) = 1 := by rw [rows]; simp [rows, hhead]
    rw [e]
    have e0 : Finset.Ico (rows t 0) 1 = {0} := by rw [rows]; rfl
    rw [e0, Finset.sum_singleton, if_pos hhead]

/-- **C35, penalty interactions added late, refuted.**  After a query, add two penalty interactions with inactive dofs: the offsets are not
recomputed and `mergedJacobian` reads past their end. -/
theorem C35_late_penalty_wrong (ops : List Op) (y z : Inter) (hy : y.lm = false) (hz : z.lm = false) (hi : z.inactive ≠ []) :
    mergedJacobian (Data.run (ops ++ [.query, .add y, .add z])) = none := by
  set s0 := (Data.run ops).refresh with hs0
  have hu : s0.upToDate = true := by
    rw [hs0]
    unfold Data.refresh
    split
    · assumption
    · rfl
  have hrun : Data.run (ops ++ [.query, .add y, .add z]) = { s0 with inters := s0.inters ++ [y] ++ [z] } := by
    unfold Data.run
    rw [List.foldl_append]
    simp only [List.foldl_cons, List.foldl_nil, Data.step]
    rw [show List.foldl Data.step Data.new ops = Data.run ops from rfl, ← hs0]
    simp [Data.add, hy, hz]
  rw [hrun]
  have hlen : s0.offsets.length ≤ s0.inters.length + 1 := by
    obtain ⟨pre, post, h1, h2, -⟩ := (inv_step (inv_run ops) .query).fresh hu
    change s0.offsets = _ at h2
    change s0.inters = _ at h1
    rw [h2, h1, scan_length, List.length_append]
    omega
  have key : ∀ (off : List ℕ) (xs : List Inter) (i : ℕ), off[i + xs.length]? = none → inactiveTdofs off (xs ++ [z]) i = none := by
    intro off xs
    induction xs with
    | nil =>
      intro i h
      simp only [List.length_nil, Nat.add_zero] at h
      simp [inactiveTdofs, hi, h]
    | cons x xs ih =>
      intro i h
      rw [List.cons_append, inactiveTdofs, ih (i + 1) (by rw [List.length_cons] at h; rw [← h]; congr 1; omega)]
      simp
  unfold mergedJacobian
  have hr : ({ s0 with inters := s0.inters ++ [y] ++ [z] } : Data).refresh.offsets = s0.offsets := by
    unfold Data.refresh
    simp [hu]
  rw [hr]
  dsimp only
  rw [key s0.offsets (s0.inters ++ [y]) 0 (by rw [List.getElem?_eq_none]; simp; omega)]
  rfl

/-- **C35, when the Jacobian is defined.**  Whenever the offsets are due to be recomputed, that is, a multiplier
interaction was added since the last query or there was no query yet. -/
theorem C35_defined (ops : List Op) (h : (Data.run ops).upToDate = false) : (mergedJacobian (Data.run ops)).isSome := by
  have key : ∀ (off : List ℕ) (xs : List Inter) (i : ℕ), i + xs.length < off.length → (inactiveTdofs off xs i).isSome := by
    intro off xs
    induction xs with
    | nil => intro i _; rfl
    | cons x xs ih =>
      intro i h
      rw [List.length_cons] at h
      obtain ⟨r, hr⟩ := Option.isSome_iff_exists.1 (ih (i + 1) (by omega))
      rw [inactiveTdofs, hr, List.getElem?_eq_getElem (by omega)]
      split <;> simp
  unfold mergedJacobian
  rw [Option.isSome_map]
  apply key
  unfold Data.refresh
  rw [if_neg (by simp [h])]
  dsimp only
  rw [scan_length]
  omega

/-! ### Pressures -/

/-- **C35, penalty pressures, exactly.**  A frictionless penalty interaction is given a tensile pressure at a dof if and only if the pressure
there was compressive before and the gap is now open. -/
theorem C35_penalty (x : Inter) (hf : x.frictionless = true) (hl : x.lm = false) (hp : 0 < x.penalty) (slice : ℕ → ℝ) (d : ℕ) (hd : d < x.size) :
    0 < x.newPressure slice d ↔ x.p d < 0 ∧ 0 < x.g d := by
  unfold Inter.newPressure
  by_cases hi : d ∈ x.inactive
  · rw [if_pos hi]
    rw [C35_active_set x hf] at hi
    constructor
    · intro h; exact absurd h (lt_irrefl _)
    · intro h; linarith [hi.2.1, h.1]
  · rw [if_neg hi, hl]
    simp only [Bool.false_eq_true, if_false]
    rw [mul_pos_iff_of_pos_left hp]
    rw [C35_active_set x hf] at hi
    constructor
    · intro h
      refine ⟨?_, h⟩
      by_contra hn
      exact hi ⟨hd, not_lt.1 hn, by linarith [show (0 : ℝ) ≤ 1 / 10 ^ 14 by positivity]⟩
    · exact fun h => h.2

/-- **C35, penalty pressures are compressive** (partial: at dofs whose previous pressure was not compressive). -/
theorem C35_penalty_partial (x : Inter) (hf : x.frictionless = true) (hl : x.lm = false) (hp : 0 < x.penalty) (slice : ℕ → ℝ) (d : ℕ)
    (hd : d < x.size) (h : 0 ≤ x.p d) : x.newPressure slice d ≤ 0 := by
  by_contra hn
  push Not at hn
  linarith [((C35_penalty x hf hl hp slice d hd).1 hn).1]

/-- **C35, penalty pressures, refuted**: when a contact opens, the next evaluation pulls the surfaces together. -/
theorem C35_penalty_wrong (x : Inter) (hf : x.frictionless = true) (hl : x.lm = false) (hp : 0 < x.penalty) (slice : ℕ → ℝ) (d : ℕ)
    (hd : d < x.size) (h1 : x.p d < 0) (h2 : 0 < x.g d) : 0 < x.newPressure slice d :=
  (C35_penalty x hf hl hp slice d hd).2 ⟨h1, h2⟩

/-- The pressure the interaction would get if every dof were active. -/
def wanted (x : Inter) (slice : ℕ → ℝ) (d : ℕ) : ℝ := if x.lm then slice d else x.penalty * x.g d

/-- **C35, repeated evaluation.**  Evaluating the residual twice at the same point uses different pressures exactly at the dofs that were in
compression before, whose gap is open and whose wanted pressure is tensile; from the second evaluation on nothing changes any more. -/
theorem C35_repeat (x : Inter) (hf : x.frictionless = true) (slice : ℕ → ℝ) (d : ℕ) (hd : d < x.size) :
    let x1 : Inter := { x with p := x.newPressure slice }
    let x2 : Inter := { x1 with p := x1.newPressure slice }
    (x2.p d ≠ x1.p d ↔ x.p d < 0 ∧ -(1 / 10 ^ 14) ≤ x.g d ∧ 0 < wanted x slice d) ∧ x2.newPressure slice d = x2.p d := by
  intro x1 x2
  have e : ∀ p : ℕ → ℝ, ({ x with p := p } : Inter).newPressure slice d =
      if 0 ≤ p d ∧ -(1 / 10 ^ 14) ≤ x.g d then 0 else wanted x slice d := by
    intro p
    have hm := C35_active_set ({ x with p := p } : Inter) hf d
    unfold Inter.newPressure
    by_cases hi : 0 ≤ p d ∧ -(1 / 10 ^ 14) ≤ x.g d
    · rw [if_pos hi, if_pos (hm.2 ⟨hd, hi⟩)]
    · rw [if_neg hi, if_neg fun h => hi (hm.1 h).2]
      rfl
  have h1 : x1.p d = if 0 ≤ x.p d ∧ -(1 / 10 ^ 14) ≤ x.g d then 0 else wanted x slice d := e x.p
  have h2 : x2.p d = if 0 ≤ x1.p d ∧ -(1 / 10 ^ 14) ≤ x.g d then 0 else wanted x slice d := e x1.p
  have h3 : x2.newPressure slice d = if 0 ≤ x2.p d ∧ -(1 / 10 ^ 14) ≤ x.g d then 0 else wanted x slice d := e x2.p
  generalize wanted x slice d = w at *
  generalize x2.newPressure slice d = p3 at *
  generalize x2.p d = p2 at *
  generalize x1.p d = p1 at *
  generalize x.p d = p0 at *
  by_cases hg : -(1 / 10 ^ 14) ≤ x.g d
  · simp only [hg, and_true] at h1 h2 h3
    by_cases h0 : 0 ≤ p0
    · rw [if_pos h0] at h1
      rw [h1, if_pos le_rfl] at h2
      rw [h2, if_pos le_rfl] at h3
      refine ⟨?_, by rw [h2, h3]⟩
      rw [h1, h2]
      constructor
      · intro h; exact absurd rfl h
      · intro h; linarith [h.1]
    · rw [if_neg h0] at h1
      rw [h1] at h2
      by_cases hw : 0 ≤ w
      · rw [if_pos hw] at h2
        rw [h2, if_pos le_rfl] at h3
        refine ⟨?_, by rw [h2, h3]⟩
        rw [h1, h2]
        constructor
        · intro h
          exact ⟨not_le.1 h0, hg, lt_of_le_of_ne hw h⟩
        · intro h
          exact h.2.2.ne
      · rw [if_neg hw] at h2
        rw [h2, if_neg hw] at h3
        refine ⟨?_, by rw [h2, h3]⟩
        rw [h1, h2]
        constructor
        · intro h; exact absurd rfl h
        · intro h; exact absurd h.2.2.le hw
  · simp only [hg, and_false, if_false, false_and] at h1 h2 h3 ⊢
    rw [h1, h2, h3]
    simp

/-! ### Examples -/

private def lmI (n : ℕ) (p g : ℝ) : Inter := ⟨true, true, 0, n, fun _ => p, fun _ => g, fun _ _ => 1, []⟩
private def penI (n : ℕ) : Inter := ⟨false, true, 1000, n, fun _ => 0, fun _ => 1, fun _ _ => 1, []⟩

/-- The wrong case occurs: an open penalty contact added before a closed multiplier contact. -/
example : ∃ b, mergedJacobian (Data.run [.add (penI 1), .add (lmI 2 (-1) (-1))]) = some b ∧ b.J11 0 0 = 1 ∧ 0 ∉ (lmI 2 (-1) (-1)).inactive := by
  have hd := C35_defined [.add (penI 1), .add (lmI 2 (-1) (-1))] (by simp [Data.run, Data.step, Data.add, Data.new, penI, lmI])
  obtain ⟨b, hb⟩ := Option.isSome_iff_exists.1 hd
  have hi : Data.inters (Data.run [.add (penI 1), .add (lmI 2 (-1) (-1))]) = [penI 1, lmI 2 (-1) (-1)] := by
    simp [Data.run, Data.step, Data.add, Data.new, penI, lmI]
  refine ⟨b, hb, C35_mixed_wrong _ b (penI 1) [lmI 2 (-1) (-1)] hb hi rfl ?_ (by simp [TiedOk, penI]), ?_⟩
  · rw [C35_active_set _ rfl]
    simp [penI]
    norm_num
  · rw [C35_active_set _ rfl]
    simp [lmI]

/-- The hypotheses of the partial theorems are met with a multiplier contact first and a penalty contact last. -/
example : ∃ b, mergedJacobian (Data.run [.add (lmI 2 1 1), .add (penI 1)]) = some b ∧ b.J11 1 1 = 1 := by
  have hd := C35_defined [.add (lmI 2 1 1), .add (penI 1)] (by simp [Data.run, Data.step, Data.add, Data.new, penI, lmI])
  obtain ⟨b, hb⟩ := Option.isSome_iff_exists.1 hd
  have hi : Data.inters (Data.run [.add (lmI 2 1 1), .add (penI 1)]) = [lmI 2 1 1, penI 1] := by
    simp [Data.run, Data.step, Data.add, Data.new, penI, lmI]
  refine ⟨b, hb, ?_⟩
  have := C35_identity_partial _ b [lmI 2 1 1] [penI 1] hb hi (by simp [lmI]) (by simp [penI]) (by rw [hi]; simp [TiedOk, lmI, penI])
    [] (lmI 2 1 1) [penI 1] 1 1 hi rfl (by simp [lmI])
  simp only [base, List.map_nil, List.sum_nil, Nat.zero_add] at this
  rw [this, if_pos]
  refine ⟨?_, trivial⟩
  rw [C35_active_set _ rfl]
  simp [lmI]
  norm_num

end Serac.C35
