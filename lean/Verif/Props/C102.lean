import Verif.Model.ElementDofs
import Mathlib.Data.Fin.Basic
import Mathlib.Tactic.FinCases
import Mathlib.Data.Fintype.Basic
import Mathlib.Tactic.NormNum
import Mathlib.Tactic.Linarith
/-!
# C102: dofs chosen by the attribute of elements

Spec, independent of the model: a mesh is a set of elements with attributes and nodes (`Mesh`), known to no processor as a whole; `Describes` says what it means that a space on
several processors is a space on that mesh.  A true dof has a place in the mesh: a node and a component.

Violation found: the constructor of a tied `ContactInteraction` chooses its dofs the same way but does not synchronise the marks of the processors, so that which dofs are tied
depends on how the mesh is distributed (`C102_tied_wrong`, `C102_tied_partition_wrong`).
-/

namespace Serac.C102
open Serac.ElementDofs

/-- Elements with their attributes and nodes. -/
structure Mesh (ι γ : Type) where
  attr : ι → ℕ
  on : ι → γ → Prop

/-- The number of component `c` of local node `j` on processor `r`. -/
def number (S : Space) (r j c : ℕ) : ℕ := if S.byNodes then j + (S.part r).nd * c else j * S.vdim + c

/-- The space `S` is one on the mesh `M`: `element r e` is element `e` of processor `r`, `node r j` is its local node `j`, and `place` says at which node and for which component
a true dof stands. -/
structure Describes {ι γ : Type} (M : Mesh ι γ) (S : Space) (element : ℕ → ℕ → ι) (node : ℕ → ℕ → γ) (place : ℕ × ℕ → γ × ℕ) : Prop where
  somewhere : ∀ x, ∃ r < S.ranks, ∃ e < (S.part r).ne, element r e = x
  attr : ∀ r < S.ranks, ∀ e < (S.part r).ne, (S.part r).attr e = M.attr (element r e)
  dofs : ∀ r < S.ranks, ∀ e < (S.part r).ne, ∀ k ∈ (S.part r).dofs e, decode k < (S.part r).nd
  nodes : ∀ r < S.ranks, ∀ e < (S.part r).ne, ∀ g, M.on (element r e) g ↔ ∃ k ∈ (S.part r).dofs e, node r (decode k) = g
  stands : ∀ r < S.ranks, ∀ j < (S.part r).nd, ∀ c < S.vdim, place (S.tdof r (number S r j c)) = (node r j, c)
  one : ∀ r < S.ranks, ∀ l < S.vsize r, ∀ r' < S.ranks, ∀ l' < S.vsize r', place (S.tdof r l) = place (S.tdof r' l') → S.tdof r l = S.tdof r' l'
  owner : ∀ r < S.ranks, ∀ i < (S.part r).trueSize, (S.part r).ldof i < S.vsize r ∧ S.tdof r ((S.part r).ldof i) = (r, i)

/-! ## Marks -/

theorem decode_vdof (S : Space) (r : ℕ) (k : ℤ) {c : ℕ} (hc : c < S.vdim) : decode (S.dofToVDof r k c) = number S r (decode k) c := by
  unfold Space.dofToVDof number decode
  by_cases h1 : S.vdim = 1
  · have hc : c = 0 := by omega
    subst hc
    simp [h1]
  · simp only [h1, if_false]
    cases S.byNodes
    · simp only [Bool.false_eq_true, if_false]
      have e : ∀ a : ℤ, 0 ≤ a → (a * S.vdim + c).toNat = a.toNat * S.vdim + c := by
        intro a ha
        obtain ⟨n, rfl⟩ := Int.eq_ofNat_of_zero_le ha
        have : ((n : ℤ) * S.vdim + c) = ((n * S.vdim + c : ℕ) : ℤ) := by push_cast; ring
        rw [this, Int.toNat_natCast, Int.toNat_natCast]
      have pos : ∀ a : ℤ, 0 ≤ a → 0 ≤ a * S.vdim + c := fun a ha => by positivity
      by_cases hk : 0 ≤ k
      · rw [if_pos hk, if_neg (by have := pos k hk; omega), if_neg (by omega), e k hk]
      · have := pos (-1 - k) (by omega)
        rw [if_neg hk, if_pos (by omega), if_pos (by omega), show -1 - (-1 - ((-1 - k) * S.vdim + c)) = (-1 - k) * S.vdim + c by ring, e _ (by omega)]
    · simp only [if_true]
      have hp : (0 : ℤ) ≤ (S.part r).nd * c := by positivity
      have hn : (((S.part r).nd * c : ℕ) : ℤ) = (S.part r).nd * c := by push_cast; rfl
      by_cases hk : 0 ≤ k
      · rw [if_pos hk]
        generalize ((S.part r).nd : ℤ) * c = z at *
        generalize (S.part r).nd * c = y at *
        split_ifs <;> omega
      · rw [if_neg hk]
        generalize ((S.part r).nd : ℤ) * c = z at *
        generalize (S.part r).nd * c = y at *
        split_ifs <;> omega

theorem number_lt (S : Space) (r : ℕ) {j c : ℕ} (hj : j < (S.part r).nd) (hc : c < S.vdim) : number S r j c < S.vsize r := by
  unfold number Space.vsize
  cases S.byNodes
  · simp only [Bool.false_eq_true, if_false]
    calc j * S.vdim + c < j * S.vdim + S.vdim := by omega
      _ = (j + 1) * S.vdim := by ring
      _ ≤ _ := Nat.mul_le_mul_right _ hj
  · simp only [if_true]
    calc j + (S.part r).nd * c < (S.part r).nd + (S.part r).nd * c := by omega
      _ = (S.part r).nd * (c + 1) := by ring
      _ ≤ _ := Nat.mul_le_mul_left _ hc

theorem markDofs_apply (x : ℤ) (dofs : List ℤ) (m : ℕ → ℤ) (l : ℕ) : markDofs x dofs m l = if ∃ k ∈ dofs, decode k = l then x else m l := by
  unfold markDofs
  induction dofs generalizing m with
  | nil => simp
  | cons k ks ih =>
    rw [List.foldl_cons, ih]
    by_cases h : ∃ k ∈ ks, decode k = l
    · rw [if_pos h, if_pos (by obtain ⟨k', h1, h2⟩ := h; exact ⟨k', List.mem_cons_of_mem _ h1, h2⟩)]
    · rw [if_neg h]
      by_cases hk : decode k = l
      · rw [if_pos ⟨k, List.mem_cons_self, hk⟩, ← hk, Function.update_self]
      · rw [if_neg (by
          rintro ⟨k', h1, h2⟩
          rcases List.mem_cons.1 h1 with rfl | h1
          · exact hk h2
          · exact h ⟨k', h1, h2⟩), Function.update_of_ne (Ne.symm hk)]

/-- The chosen vdofs of an element. -/
theorem chosen_mem (S : Space) {component : ℤ} (hc : component < S.vdim) (r e l : ℕ) :
    (∃ k ∈ S.chosenVDofs component r e, decode k = l) ↔
      ∃ k ∈ (S.part r).dofs e, ∃ c < S.vdim, (component < 0 ∨ component = c) ∧ number S r (decode k) c = l := by
  unfold Space.chosenVDofs Space.elementVDofs
  by_cases h : component < 0
  · rw [if_pos h]
    constructor
    · rintro ⟨v, hv, hl⟩
      obtain ⟨c, hc, hv⟩ := List.mem_flatMap.1 hv
      obtain ⟨k, hk, rfl⟩ := List.mem_map.1 hv
      rw [List.mem_range] at hc
      exact ⟨k, hk, c, hc, .inl h, by rw [← hl, decode_vdof S r k hc]⟩
    · rintro ⟨k, hk, c, hc, -, hl⟩
      exact ⟨_, List.mem_flatMap.2 ⟨c, List.mem_range.2 hc, List.mem_map.2 ⟨k, hk, rfl⟩⟩, by rw [decode_vdof S r k hc, hl]⟩
  · rw [if_neg h]
    have hn : component.toNat < S.vdim := by omega
    constructor
    · rintro ⟨v, hv, hl⟩
      obtain ⟨k, hk, rfl⟩ := List.mem_map.1 hv
      exact ⟨k, hk, component.toNat, hn, .inr (by omega), by rw [← hl, decode_vdof S r k hn]⟩
    · rintro ⟨k, hk, c, hc, hcc, hl⟩
      have : c = component.toNat := by omega
      subst this
      exact ⟨_, List.mem_map.2 ⟨k, hk, rfl⟩, by rw [decode_vdof S r k hc, hl]⟩

/-- The marks of a processor after its loop: those of its own elements with marked attributes. -/
theorem markElements_spec (S : Space) {isEss : List Bool} (component : ℤ) {r : ℕ} (h : ∀ e < (S.part r).ne, (S.part r).attr e - 1 < isEss.length) :
    ∃ m, S.markElements isEss component r = some m ∧
      ∀ l, m l ≠ 0 ↔ ∃ e < (S.part r).ne, isEss[(S.part r).attr e - 1]? = some true ∧ ∃ k ∈ S.chosenVDofs component r e, decode k = l := by
  unfold Space.markElements
  generalize (S.part r).ne = n at h
  induction n with
  | zero => exact ⟨fun _ => 0, rfl, fun l => by simp⟩
  | succ n ih =>
    obtain ⟨m, h1, h2⟩ := ih fun e he => h e (by omega)
    rw [List.range_succ, List.foldlM_append, h1]
    have hn := h n (by omega)
    have hg : isEss[(S.part r).attr n - 1]? = some isEss[(S.part r).attr n - 1] := List.getElem?_eq_getElem hn
    cases hb : isEss[(S.part r).attr n - 1] with
    | false =>
      rw [hb] at hg
      refine ⟨m, by simp [Space.markElement, hg], fun l => (h2 l).trans ⟨?_, ?_⟩⟩
      · rintro ⟨e, he, h⟩
        exact ⟨e, by omega, h⟩
      · rintro ⟨e, he, h3, h4⟩
        rcases Nat.lt_succ_iff_lt_or_eq.1 he with he | rfl
        · exact ⟨e, he, h3, h4⟩
        · rw [hg] at h3
          cases h3
    | true =>
      rw [hb] at hg
      refine ⟨markDofs (-1) (S.chosenVDofs component r n) m, by simp [Space.markElement, hg], fun l => ?_⟩
      rw [markDofs_apply]
      split_ifs with hl
      · exact ⟨fun _ => ⟨n, by omega, hg, hl⟩, fun _ => by decide⟩
      · rw [h2]
        constructor
        · rintro ⟨e, he, h⟩
          exact ⟨e, by omega, h⟩
        · rintro ⟨e, he, h3, h4⟩
          rcases Nat.lt_succ_iff_lt_or_eq.1 he with he | rfl
          · exact ⟨e, he, h3, h4⟩
          · exact absurd h4 hl

theorem or_ne (L : List ℤ) (a : ℤ) : L.foldl (fun a x => if a = 0 ∧ x = 0 then 0 else -1) a ≠ 0 ↔ a ≠ 0 ∨ ∃ x ∈ L, x ≠ 0 := by
  induction L generalizing a with
  | nil => simp
  | cons y L ih =>
    rw [List.foldl_cons, ih]
    by_cases ha : a = 0 <;> by_cases hy : y = 0 <;> simp [ha, hy]

theorem synchronize_ne (S : Space) (m : ℕ → ℕ → ℤ) (r l : ℕ) :
    S.synchronize m r l ≠ 0 ↔ ∃ r' < S.ranks, ∃ l' < S.vsize r', S.tdof r' l' = S.tdof r l ∧ m r' l' ≠ 0 := by
  unfold Space.synchronize
  rw [or_ne]
  constructor
  · rintro (h | ⟨x, hx, h⟩)
    · exact absurd rfl h
    · obtain ⟨r', hr, hx⟩ := List.mem_flatMap.1 hx
      obtain ⟨l', hl, rfl⟩ := List.mem_map.1 hx
      rw [List.mem_range] at hr hl
      split_ifs at h with ht
      · exact ⟨r', hr, l', hl, ht, h⟩
      · exact absurd rfl h
  · rintro ⟨r', hr, l', hl, ht, h⟩
    exact .inr ⟨_, List.mem_flatMap.2 ⟨r', List.mem_range.2 hr, List.mem_map.2 ⟨l', List.mem_range.2 hl, rfl⟩⟩, by rw [if_pos ht]; exact h⟩

theorem trueList_mem (S : Space) (m : ℕ → ℤ) (r i : ℕ) : i ∈ S.trueList m r ↔ i < (S.part r).trueSize ∧ m ((S.part r).ldof i) ≠ 0 := by
  unfold Space.trueList
  simp

/-! ## Theorems -/

section
variable {ι γ : Type} {M : Mesh ι γ} {S : Space} {element : ℕ → ℕ → ι} {node : ℕ → ℕ → γ} {place : ℕ × ℕ → γ × ℕ}

/-- The marked elements of the mesh that have a node. -/
def Marked (M : Mesh ι γ) (isEss : List Bool) (g : γ) : Prop := ∃ x, isEss[M.attr x - 1]? = some true ∧ M.on x g

/-- **C102, the selection.**  If the array has an entry for every attribute, the function returns on every processor, in increasing order, exactly those of its true dofs that stand at a
node of an element with a marked attribute, for the chosen component, wherever that element is. -/
theorem C102_selected (h : Describes M S element node place) {isEss : List Bool} (he : ∀ x, M.attr x - 1 < isEss.length) {component : ℤ} (hc : component < S.vdim) :
    ∃ out, S.essentialTrueDofs isEss component = some out ∧ ∀ r < S.ranks, (out r).Pairwise (· < ·) ∧
      ∀ i, i ∈ out r ↔ i < (S.part r).trueSize ∧ Marked M isEss (place (r, i)).1 ∧ (component < 0 ∨ component = (place (r, i)).2) := by
  have hm : ∀ r < S.ranks, ∃ m, S.markElements isEss component r = some m ∧
      ∀ l, m l ≠ 0 ↔ ∃ e < (S.part r).ne, isEss[(S.part r).attr e - 1]? = some true ∧ ∃ k ∈ S.chosenVDofs component r e, decode k = l := fun r hr =>
    markElements_spec S component fun e hee => by rw [h.attr r hr e hee]; exact he _
  unfold Space.essentialTrueDofs
  rw [if_pos (by
    rw [List.all_eq_true]
    intro r hr
    obtain ⟨m, h1, -⟩ := hm r (List.mem_range.1 hr)
    rw [h1]
    rfl)]
  refine ⟨_, rfl, fun r hr => ⟨?_, fun i => ?_⟩⟩
  · exact (List.pairwise_lt_range).filter _
  · rw [trueList_mem]
    refine and_congr_right fun hi => ?_
    obtain ⟨hl, ht⟩ := h.owner r hr i hi
    rw [synchronize_ne]
    constructor
    · rintro ⟨r', hr', l', hl', htd, hne⟩
      obtain ⟨m, h1, h2⟩ := hm r' hr'
      rw [h1, Option.getD_some, h2] at hne
      obtain ⟨e, hee, hb, hk⟩ := hne
      obtain ⟨k, hkd, c, hcv, hcc, rfl⟩ := (chosen_mem S hc r' e l').1 hk
      have hp := h.stands r' hr' (decode k) (h.dofs r' hr' e hee k hkd) c hcv
      rw [htd, ht] at hp
      rw [hp]
      exact ⟨⟨element r' e, by rw [← h.attr r' hr' e hee]; exact hb, (h.nodes r' hr' e hee _).2 ⟨k, hkd, rfl⟩⟩, hcc⟩
    · rintro ⟨⟨x, hb, hx⟩, hcc⟩
      obtain ⟨r', hr', e, hee, rfl⟩ := h.somewhere x
      obtain ⟨k, hk, hkn⟩ := (h.nodes r' hr' e hee _).1 hx
      have hd := h.dofs r' hr' e hee k hk
      obtain ⟨j, hj, c, hcv, hjc⟩ : ∃ j < (S.part r).nd, ∃ c < S.vdim, number S r j c = (S.part r).ldof i := by
        unfold number
        unfold Space.vsize at hl
        have hv : 0 < S.vdim := by
          rcases S.vdim.eq_zero_or_pos with h0 | h0
          · rw [h0, mul_zero] at hl
            omega
          · exact h0
        have hn : 0 < (S.part r).nd := by
          rcases (S.part r).nd.eq_zero_or_pos with h0 | h0
          · rw [h0, zero_mul] at hl
            omega
          · exact h0
        cases S.byNodes
        · refine ⟨(S.part r).ldof i / S.vdim, (Nat.div_lt_iff_lt_mul hv).2 hl, (S.part r).ldof i % S.vdim, Nat.mod_lt _ hv, ?_⟩
          simp only [Bool.false_eq_true, if_false]
          rw [mul_comm]
          exact Nat.div_add_mod _ _
        · refine ⟨(S.part r).ldof i % (S.part r).nd, Nat.mod_lt _ hn, (S.part r).ldof i / (S.part r).nd, Nat.div_lt_of_lt_mul hl, ?_⟩
          simp only [if_true]
          exact Nat.mod_add_div _ _
      have hp := h.stands r hr j hj c hcv
      rw [hjc, ht] at hp
      have hc2 : (place (r, i)).2 = c := by rw [hp]
      refine ⟨r', hr', number S r' (decode k) c, number_lt S r' hd hcv, ?_, ?_⟩
      · refine h.one r' hr' _ (number_lt S r' hd hcv) r hr _ hl ?_
        rw [h.stands r' hr' _ hd c hcv, hkn, ht, hp]
      · obtain ⟨m, h1, h2⟩ := hm r' hr'
        rw [h1, Option.getD_some, h2]
        refine ⟨e, hee, by rw [h.attr r' hr' e hee]; exact hb, (chosen_mem S hc r' e _).2 ⟨k, hk, c, hcv, ?_, rfl⟩⟩
        rw [hc2] at hcc
        exact hcc

/-- **C102, the number of processors does not matter.**  Two spaces on the same mesh, distributed in any two ways and numbered in any two orders: true dofs at the same place are chosen
by both or by none. -/
theorem C102_partition (h : Describes M S element node place) {S' : Space} {element' : ℕ → ℕ → ι} {node' : ℕ → ℕ → γ} {place' : ℕ × ℕ → γ × ℕ}
    (h' : Describes M S' element' node' place') {isEss : List Bool} (he : ∀ x, M.attr x - 1 < isEss.length) {component : ℤ} (hc : component < S.vdim) (hv : S.vdim = S'.vdim)
    {out out' : ℕ → List ℕ} (ho : S.essentialTrueDofs isEss component = some out) (ho' : S'.essentialTrueDofs isEss component = some out')
    {r i r' i' : ℕ} (hr : r < S.ranks) (hi : i < (S.part r).trueSize) (hr' : r' < S'.ranks) (hi' : i' < (S'.part r').trueSize) (hp : place (r, i) = place' (r', i')) :
    i ∈ out r ↔ i' ∈ out' r' := by
  obtain ⟨o, e1, e2⟩ := C102_selected h he hc
  obtain ⟨o', e1', e2'⟩ := C102_selected h' he (hv ▸ hc)
  rw [ho] at e1
  rw [ho'] at e1'
  cases e1
  cases e1'
  rw [(e2 r hr).2, (e2' r' hr').2, hp]
  simp [hi, hi']

/-- **C102, the array of attributes.**  If some element of some processor has an attribute beyond the array, the array is read beyond its end. -/
theorem C102_short {isEss : List Bool} {component : ℤ} {r : ℕ} (hr : r < S.ranks) {e : ℕ} (he : e < (S.part r).ne) (hb : isEss.length ≤ (S.part r).attr e - 1) :
    S.essentialTrueDofs isEss component = none := by
  unfold Space.essentialTrueDofs
  rw [if_neg]
  rw [List.all_eq_true]
  intro h
  have := h r (List.mem_range.2 hr)
  revert this
  unfold Space.markElements
  have key : ∀ n, e < n → (List.range n).foldlM (S.markElement isEss component r) (fun _ => 0) = none := by
    intro n
    induction n with
    | zero => omega
    | succ n ih =>
      intro hn
      rw [List.range_succ, List.foldlM_append]
      rcases Nat.lt_succ_iff_lt_or_eq.1 hn with hn | rfl
      · rw [ih hn]
        rfl
      · have : isEss[(S.part r).attr e - 1]? = none := List.getElem?_eq_none hb
        cases (List.range e).foldlM (S.markElement isEss component r) (fun _ => 0) with
        | none => rfl
        | some m => simp [Space.markElement, this]
  rw [key _ he]
  simp

/-! ### Tied contact -/

theorem tied_marks (S : Space) (surf2 : List ℕ) (r n l : ℕ) :
    (List.range n).foldl (fun m e => if (S.part r).attr e ∈ surf2 then markDofs 0 (S.elementVDofs r e) m else m) (fun _ => (-1 : ℤ)) l ≠ 0 ↔
      ¬∃ e < n, (S.part r).attr e ∈ surf2 ∧ ∃ k ∈ S.elementVDofs r e, decode k = l := by
  induction n with
  | zero => simp
  | succ n ih =>
    rw [List.range_succ, List.foldl_append, List.foldl_cons, List.foldl_nil]
    have e1 : (∃ e < n + 1, (S.part r).attr e ∈ surf2 ∧ ∃ k ∈ S.elementVDofs r e, decode k = l) ↔
        (∃ e < n, (S.part r).attr e ∈ surf2 ∧ ∃ k ∈ S.elementVDofs r e, decode k = l) ∨ ((S.part r).attr n ∈ surf2 ∧ ∃ k ∈ S.elementVDofs r n, decode k = l) := by
      constructor
      · rintro ⟨e, he, h⟩
        rcases Nat.lt_succ_iff_lt_or_eq.1 he with he | rfl
        · exact .inl ⟨e, he, h⟩
        · exact .inr h
      · rintro (⟨e, he, h⟩ | h)
        · exact ⟨e, by omega, h⟩
        · exact ⟨n, by omega, h⟩
    rw [e1, not_or]
    by_cases h : (S.part r).attr n ∈ surf2
    · rw [if_pos h, markDofs_apply]
      by_cases hk : ∃ k ∈ S.elementVDofs r n, decode k = l
      · rw [if_pos hk]
        exact ⟨fun h1 => absurd rfl h1, fun h1 => absurd ⟨h, hk⟩ h1.2⟩
      · rw [if_neg hk, ih]
        exact ⟨fun h1 => ⟨h1, fun h2 => hk h2.2⟩, fun h1 => h1.1⟩
    · rw [if_neg h, ih]
      exact ⟨fun h1 => ⟨h1, fun h2 => h h2.1⟩, fun h1 => h1.1⟩

/-- The node of a true dof lies on an element of the second surface; all elements, or those of one processor. -/
def OnSurface (M : Mesh ι γ) (surf2 : List ℕ) (g : γ) : Prop := ∃ x, M.attr x ∈ surf2 ∧ M.on x g
def OnOwn (M : Mesh ι γ) (S : Space) (element : ℕ → ℕ → ι) (surf2 : List ℕ) (r : ℕ) (g : γ) : Prop :=
  ∃ e < (S.part r).ne, M.attr (element r e) ∈ surf2 ∧ M.on (element r e) g

/-- **C102, tied surfaces, exactly.**  A true dof of the (scalar) pressure space is inactive exactly if it lies on no element of the second surface *of its own processor*. -/
theorem C102_tied_wrong (h : Describes M S element node place) (hv : S.vdim = 1) (inj : ∀ r < S.ranks, ∀ j < (S.part r).nd, ∀ j' < (S.part r).nd, node r j = node r j' → j = j')
    (surf2 : List ℕ) {r i : ℕ} (hr : r < S.ranks) (hi : i < (S.part r).trueSize) :
    i ∈ S.tiedInactive surf2 r ↔ ¬OnOwn M S element surf2 r (place (r, i)).1 := by
  obtain ⟨hl, ht⟩ := h.owner r hr i hi
  have hnum : ∀ j, number S r j 0 = j := by
    intro j
    unfold number
    rw [hv]
    split_ifs <;> simp
  have hl' : (S.part r).ldof i < (S.part r).nd := by
    unfold Space.vsize at hl
    rw [hv, mul_one] at hl
    exact hl
  have hp := h.stands r hr _ hl' 0 (by omega)
  rw [hnum, ht] at hp
  unfold Space.tiedInactive
  rw [trueList_mem, tied_marks]
  simp only [hi, true_and]
  refine not_congr ⟨?_, ?_⟩
  · rintro ⟨e, he, ha, hk⟩
    have hc : S.chosenVDofs (-1) r e = S.elementVDofs r e := rfl
    rw [← hc, chosen_mem S (by omega)] at hk
    obtain ⟨k, hk, c, hcv, -, hkl⟩ := hk
    have : c = 0 := by omega
    subst this
    rw [hnum] at hkl
    refine ⟨e, he, by rw [← h.attr r hr e he]; exact ha, (h.nodes r hr e he _).2 ⟨k, hk, ?_⟩⟩
    rw [hkl, hp]
  · rintro ⟨e, he, ha, ho⟩
    obtain ⟨k, hk, hkn⟩ := (h.nodes r hr e he _).1 ho
    refine ⟨e, he, by rw [h.attr r hr e he]; exact ha, ?_⟩
    have hc : S.chosenVDofs (-1) r e = S.elementVDofs r e := rfl
    rw [← hc, chosen_mem S (by omega)]
    refine ⟨k, hk, 0, by omega, .inl (by omega), ?_⟩
    rw [hnum]
    rw [hp] at hkn
    exact inj r hr _ (h.dofs r hr e he k hk) _ hl' hkn

/-- **C102, tied surfaces** (partial: the processor of a dof has an element of the second surface at every dof of the surface, as with one processor): the inactive dofs are those not
on the second surface. -/
theorem C102_tied_partial (h : Describes M S element node place) (hv : S.vdim = 1) (inj : ∀ r < S.ranks, ∀ j < (S.part r).nd, ∀ j' < (S.part r).nd, node r j = node r j' → j = j')
    (surf2 : List ℕ) {r i : ℕ} (hr : r < S.ranks) (hi : i < (S.part r).trueSize)
    (hown : OnSurface M surf2 (place (r, i)).1 → OnOwn M S element surf2 r (place (r, i)).1) : i ∈ S.tiedInactive surf2 r ↔ ¬OnSurface M surf2 (place (r, i)).1 := by
  rw [C102_tied_wrong h hv inj surf2 hr hi]
  exact not_congr ⟨fun ⟨e, _, h1, h2⟩ => ⟨_, h1, h2⟩, hown⟩

/-- **C102, one processor.**  Then that is so. -/
theorem C102_tied_serial (h : Describes M S element node place) (hv : S.vdim = 1) (inj : ∀ r < S.ranks, ∀ j < (S.part r).nd, ∀ j' < (S.part r).nd, node r j = node r j' → j = j')
    (surf2 : List ℕ) (h1 : S.ranks = 1) {i : ℕ} (hi : i < (S.part 0).trueSize) : i ∈ S.tiedInactive surf2 0 ↔ ¬OnSurface M surf2 (place (0, i)).1 := by
  refine C102_tied_partial h hv inj surf2 (by omega) hi ?_
  rintro ⟨x, hx, hg⟩
  obtain ⟨r, hr, e, he, rfl⟩ := h.somewhere x
  have : r = 0 := by omega
  subst this
  exact ⟨e, he, hx, hg⟩

/-! ### Local dofs of a boundary condition given by true dofs -/

/-- **C102, local dofs, exactly.**  The local dofs of a condition on a list of true dofs are those local dofs whose true dof is listed *and belongs to the same processor*; copies of
listed dofs on other processors are left out, other than for conditions given by attributes (`C25`). -/
theorem C102_local_wrong (h : Describes M S element node place) {r : ℕ} (hr : r < S.ranks) (own : ∀ l < S.vsize r, (S.tdof r l).1 = r → (S.tdof r l).2 < (S.part r).trueSize)
    (inj : ∀ l < S.vsize r, ∀ l' < S.vsize r, S.tdof r l = S.tdof r l' → l = l') {dofs : List ℕ} {l : ℕ} (hl : l < S.vsize r) :
    l ∈ S.localOfTrue r dofs ↔ (S.tdof r l).1 = r ∧ (S.tdof r l).2 ∈ dofs := by
  unfold Space.localOfTrue
  rw [List.mem_filter, List.any_eq_true]
  simp only [List.mem_range, hl, true_and, Bool.and_eq_true, beq_iff_eq, List.contains_iff_mem]
  constructor
  · rintro ⟨i, hi, rfl, hd⟩
    rw [(h.owner r hr i hi).2]
    exact ⟨rfl, hd⟩
  · rintro ⟨h1, h2⟩
    have hi := own l hl h1
    refine ⟨_, hi, ?_, h2⟩
    obtain ⟨h3, h4⟩ := h.owner r hr _ hi
    refine inj _ h3 _ hl ?_
    rw [h4]
    exact Prod.ext h1.symm rfl

end

/-! ## Examples -/

section Examples

/-- Two segments in a row, the second one of attribute 2, with three nodes. -/
def exMesh : Mesh (Fin 2) (Fin 3) := ⟨fun x => x + 1, fun x g => g = x.castSucc ∨ g = x.succ⟩

/-- On one processor; the second element's dofs are listed with a sign. -/
def exOne (vdim : ℕ) : Space := ⟨1, vdim, true, fun _ => ⟨2, fun e => e + 1, fun e => if e = 0 then [0, 1] else [-2, 2], 3, 3 * vdim, fun i => i⟩, fun _ l => (0, l)⟩

theorem exOne_describes {vdim : ℕ} : Describes exMesh (exOne vdim) (fun _ e => if e = 0 then 0 else 1) (fun _ j => if j = 0 then 0 else if j = 1 then 1 else 2)
    fun p => (if p.2 % 3 = 0 then 0 else if p.2 % 3 = 1 then 1 else 2, p.2 / 3) where
  somewhere x := ⟨0, Nat.zero_lt_one, x, x.2, by fin_cases x <;> rfl⟩
  attr r _ e he := by
    have : e = 0 ∨ e = 1 := by change e < 2 at he; omega
    rcases this with rfl | rfl <;> rfl
  dofs r _ e he k hk := by
    have : e = 0 ∨ e = 1 := by change e < 2 at he; omega
    rcases this with rfl | rfl
    · have : k = 0 ∨ k = 1 := by simpa [exOne] using hk
      change decode k < 3
      rcases this with rfl | rfl <;> decide
    · have : k = -2 ∨ k = 2 := by simpa [exOne] using hk
      change decode k < 3
      rcases this with rfl | rfl <;> decide
  nodes r _ e he g := by
    have : e = 0 ∨ e = 1 := by change e < 2 at he; omega
    rcases this with rfl | rfl <;> fin_cases g <;> simp [exMesh, exOne, decode]
  stands r _ j hj c hc := by
    have : j = 0 ∨ j = 1 ∨ j = 2 := by change j < 3 at hj; omega
    have e : number (exOne vdim) r j c = j + 3 * c := rfl
    rw [e]
    change ((if (j + 3 * c) % 3 = 0 then (0 : Fin 3) else if (j + 3 * c) % 3 = 1 then 1 else 2), (j + 3 * c) / 3) = _
    have e1 : (j + 3 * c) % 3 = j := by omega
    have e2 : (j + 3 * c) / 3 = c := by omega
    rw [e1, e2]
  one r hr l _ r' hr' l' _ h := by
    have h1 := congrArg Prod.fst h
    have h2 : l / 3 = l' / 3 := congrArg Prod.snd h
    change (0, l) = (0, l')
    have h3 : l % 3 = l' % 3 := by
      change (if l % 3 = 0 then (0 : Fin 3) else if l % 3 = 1 then 1 else 2) = if l' % 3 = 0 then 0 else if l' % 3 = 1 then 1 else 2 at h1
      split_ifs at h1 <;> omega
    have : l = l' := by omega
    rw [this]
  owner r hr i hi := by
    have : r = 0 := by change r < 1 at hr; omega
    subst this
    exact ⟨by change i < 3 * vdim at hi; exact hi, rfl⟩

/-- On two processors, an element each; the node between them belongs to the first processor. -/
def exTwo : Space := ⟨2, 1, true, fun r => ⟨1, fun _ => r + 1, fun _ => [0, 1], 2, if r = 0 then 2 else 1, fun i => if r = 0 then i else 1⟩,
  fun r l => if r = 0 then (0, l) else if l = 0 then (0, 1) else (1, 0)⟩

theorem exTwo_describes : Describes exMesh exTwo (fun r _ => if r = 0 then 0 else 1) (fun r j => if r + j = 0 then 0 else if r + j = 1 then 1 else 2)
    fun p => (if p = (0, 0) then 0 else if p = (0, 1) then 1 else 2, 0) where
  somewhere x := ⟨x, x.2, 0, Nat.zero_lt_one, by fin_cases x <;> rfl⟩
  attr r hr e he := by
    have : r = 0 ∨ r = 1 := by change r < 2 at hr; omega
    rcases this with rfl | rfl <;> rfl
  dofs r _ e he k hk := by
    have : k = 0 ∨ k = 1 := by simpa [exTwo] using hk
    rcases this with rfl | rfl
    · change (0 : ℕ) < 2; decide
    · change (1 : ℕ) < 2; decide
  nodes r hr e he g := by
    have : r = 0 ∨ r = 1 := by change r < 2 at hr; omega
    rcases this with rfl | rfl <;> fin_cases g <;> simp [exMesh, exTwo, decode]
  stands r hr j hj c hc := by
    have h1 : r = 0 ∨ r = 1 := by change r < 2 at hr; omega
    have h2 : j = 0 ∨ j = 1 := by change j < 2 at hj; omega
    have h3 : c = 0 := by change c < 1 at hc; omega
    subst h3
    rcases h1 with rfl | rfl <;> rcases h2 with rfl | rfl <;> rfl
  one r hr l hl r' hr' l' hl' h := by
    have h1 : r = 0 ∨ r = 1 := by change r < 2 at hr; omega
    have h2 : l = 0 ∨ l = 1 := by change l < 2 at hl; omega
    have h3 : r' = 0 ∨ r' = 1 := by change r' < 2 at hr'; omega
    have h4 : l' = 0 ∨ l' = 1 := by change l' < 2 at hl'; omega
    rcases h1 with rfl | rfl <;> rcases h2 with rfl | rfl <;> rcases h3 with rfl | rfl <;> rcases h4 with rfl | rfl <;> first | rfl | exact absurd h (by decide)
  owner r hr i hi := by
    have h1 : r = 0 ∨ r = 1 := by change r < 2 at hr; omega
    rcases h1 with rfl | rfl
    · have : i = 0 ∨ i = 1 := by change i < 2 at hi; omega
      rcases this with rfl | rfl <;> exact ⟨by decide, rfl⟩
    · have : i = 0 := by change i < 1 at hi; omega
      subst this
      exact ⟨by decide, rfl⟩

/-- **C102, tied surfaces and the number of processors, violated.**  One mesh, on one processor and on two: the node in the middle is on the second surface; it is tied in the first case
and free in the second. -/
theorem C102_tied_partition_wrong : ∃ (M : Mesh (Fin 2) (Fin 3)) (S S' : Space) (el el' : ℕ → ℕ → Fin 2) (nd nd' : ℕ → ℕ → Fin 3) (pl pl' : ℕ × ℕ → Fin 3 × ℕ) (surf2 : List ℕ),
    Describes M S el nd pl ∧ Describes M S' el' nd' pl' ∧ pl (0, 1) = pl' (0, 1) ∧ OnSurface M surf2 (pl (0, 1)).1 ∧ 1 ∉ S.tiedInactive surf2 0 ∧ 1 ∈ S'.tiedInactive surf2 0 :=
  ⟨exMesh, exOne 1, exTwo, _, _, _, _, _, _, [2], exOne_describes, exTwo_describes, rfl, ⟨1, by simp [exMesh], by simp [exMesh]⟩, by decide, by decide⟩

/-- The attribute 2, on one processor and on two, and one component of a field of two components. -/
example : ((exOne 1).essentialTrueDofs [false, true] (-1)).map (· 0) = some [1, 2] := by decide
example : (exTwo.essentialTrueDofs [false, true] (-1)).map (fun o => (o 0, o 1)) = some ([1], [0]) := by decide
example : ∃ out, (exOne 2).essentialTrueDofs [false, true] 1 = some out ∧ 4 ∈ out 0 ∧ 1 ∉ out 0 := by
  obtain ⟨out, h1, h2⟩ := C102_selected (exOne_describes (vdim := 2)) (isEss := [false, true]) (fun x => by fin_cases x <;> decide) (component := 1) (by decide)
  refine ⟨out, h1, ((h2 0 (by decide)).2 4).2 ⟨by decide, ⟨1, by decide, by simp [exMesh]⟩, .inr (by decide)⟩, fun h => ?_⟩
  have := (((h2 0 (by decide)).2 1).1 h).2.2
  revert this
  decide
example : (exOne 1).essentialTrueDofs [true] (-1) = none := C102_short (r := 0) (by decide) (e := 1) (by decide) (by decide)

/-- The node in the middle, fixed by its true dof: the second processor does not list its copy. -/
example : exTwo.localOfTrue 0 [1] = [1] ∧ exTwo.localOfTrue 1 [] = [] ∧ exTwo.tdof 1 0 = (0, 1) := by decide
example : (0 : ℕ) ∉ exTwo.localOfTrue 1 [0] := fun h => by
  have := (C102_local_wrong exTwo_describes (r := 1) (by decide) (by decide) (by decide) (dofs := [0]) (l := 0) (by decide)).1 h
  exact absurd this.1 (by decide)
/-- The left end of the first segment belongs to the processor of that segment: tying by attribute 1 is right there. -/
example : (1 : ℕ) ∉ exTwo.tiedInactive [1] 0 := fun h =>
  (C102_tied_partial exTwo_describes rfl (by decide) [1] (r := 0) (i := 1) (by decide) (by decide) fun _ => ⟨0, by decide, by simp [exMesh], by simp [exMesh]⟩).1 h
    ⟨0, by simp [exMesh], by simp [exMesh]⟩

end Examples

end Serac.C102
