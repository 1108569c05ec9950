import Verif.Model.LU
import Mathlib.LinearAlgebra.Matrix.Block
import Mathlib.LinearAlgebra.Matrix.NonsingularInverse
import Mathlib.Algebra.BigOperators.Fin
import Mathlib.Tactic.FieldSimp
import Mathlib.Tactic.Abel
import Mathlib.Tactic.Module
/-!
# Lemmas about the LU model
-/

namespace Serac.LU

theorem forFrom_lt {S : Type} {n : ℕ} (body : Fin n → S → Option S) (lo : ℕ) (s : S) (h : lo < n) :
    forFrom n body lo s = (body ⟨lo, h⟩ s).bind (forFrom n body (lo + 1)) := by rw [forFrom, dif_pos h]

theorem forFrom_ge {S : Type} {n : ℕ} (body : Fin n → S → Option S) (lo : ℕ) (s : S) (h : n ≤ lo) :
    forFrom n body lo s = some s := by rw [forFrom, dif_neg (not_lt.mpr h)]

theorem forFrom_inv {S : Type} {n : ℕ} {body : Fin n → S → Option S} (I : ℕ → S → Prop)
    (step : ∀ (j : Fin n) s s', I j.val s → body j s = some s' → I (j.val + 1) s') (lo : ℕ) (s s' : S) (hlo : lo ≤ n) (h0 : I lo s)
    (h : forFrom n body lo s = some s') : I n s' := by
  induction hk : n - lo generalizing lo s with
  | zero =>
    have : ¬ lo < n := by omega
    rw [forFrom, dif_neg this] at h
    have e : lo = n := by omega
    cases h; exact e ▸ h0
  | succ k ih =>
    have hlt : lo < n := by omega
    rw [forFrom, dif_pos hlt] at h
    obtain ⟨s1, h1, h2⟩ := Option.bind_eq_some_iff.mp h
    exact ih (lo + 1) s1 (by omega) (step ⟨lo, hlt⟩ s s1 h0 h1) h2 (by omega)

theorem forFrom_total {S : Type} {n : ℕ} {body : Fin n → S → Option S} (I : ℕ → S → Prop)
    (step : ∀ (j : Fin n) s, I j.val s → ∃ s', body j s = some s' ∧ I (j.val + 1) s') (lo : ℕ) (s : S) (hlo : lo ≤ n) (h0 : I lo s) :
    ∃ s', forFrom n body lo s = some s' ∧ I n s' := by
  induction hk : n - lo generalizing lo s with
  | zero =>
    have : ¬ lo < n := by omega
    rw [forFrom, dif_neg this]
    have e : lo = n := by omega
    exact ⟨s, rfl, e ▸ h0⟩
  | succ k ih =>
    have hlt : lo < n := by omega
    rw [forFrom, dif_pos hlt]
    obtain ⟨s1, h1, h2⟩ := step ⟨lo, hlt⟩ s h0
    rw [h1, Option.bind_some]
    exact ih (lo + 1) s1 (by omega) h2 (by omega)

variable {R V : Type} [Field R] [LinearOrder R] [AddCommGroup V] [Module R V] {n : ℕ}

/-! ### Pivot search and row exchanges -/

theorem swapAt_eq {X : Type} (x : Fin n → X) (a b : Fin n) : swapAt x a b = x ∘ Equiv.swap a b := by
  funext k
  simp only [swapAt, Function.comp]
  by_cases hb : k = b
  · subst hb; simp
  · rw [Function.update_of_ne hb]
    by_cases ha : k = a
    · subst ha; simp
    · rw [Function.update_of_ne ha, Equiv.swap_apply_of_ne_of_ne ha hb]

theorem abs'_eq [IsStrictOrderedRing R] (x : R) : abs' x = |x| := by
  unfold abs'
  split
  · rename_i h; rw [abs_of_neg h]
  · rename_i h; rw [abs_of_nonneg (not_lt.mp h)]

theorem findPivot_spec (U : Fin n → Fin n → R) (i : Fin n) :
    ∃ v r, findPivot U i = some (v, r) ∧ i ≤ r ∧ v = abs' (U r i) ∧ ∀ j, i ≤ j → abs' (U j i) ≤ v := by
  obtain ⟨⟨v, r⟩, h1, h2⟩ := forFrom_total
    (body := fun j (s : R × Fin n) => some (if s.1 < abs' (U j i) then (abs' (U j i), j) else s))
    (fun k (s : R × Fin n) => i ≤ s.2 ∧ i.val < k ∧ s.1 = abs' (U s.2 i) ∧ ∀ j, i ≤ j → j.val < k → abs' (U j i) ≤ s.1)
    (fun j s hs => by
      refine ⟨_, rfl, ?_⟩
      by_cases hlt : s.1 < abs' (U j i)
      · rw [if_pos hlt]
        refine ⟨?_, by omega, rfl, fun j' hj' hk => ?_⟩
        · exact Fin.le_def.mpr (show i.val ≤ j.val by have := hs.2.1; omega)
        · by_cases e : j' = j
          · subst e; exact le_rfl
          · have : j'.val ≠ j.val := fun h => e (Fin.ext h)
            exact le_trans (hs.2.2.2 j' hj' (by omega)) hlt.le
      · rw [if_neg hlt]
        refine ⟨hs.1, by omega, hs.2.2.1, fun j' hj' hk => ?_⟩
        by_cases e : j' = j
        · subst e; exact not_lt.mp hlt
        · have : j'.val ≠ j.val := fun h => e (Fin.ext h)
          exact hs.2.2.2 j' hj' (by omega))
    (i.val + 1) (abs' (U i i), i) i.isLt
    ⟨le_rfl, by omega, rfl, fun j hj hk => by
      have : j = i := le_antisymm (Fin.le_def.mpr (by omega)) hj
      subst this; exact le_rfl⟩
  exact ⟨v, r, h1, h2.1, h2.2.2.1, fun j hj => h2.2.2.2 j hj j.isLt⟩

/-- The exchanged matrix is the original with its rows permuted. -/
theorem pivotRows_spec (A : Fin n → Fin n → R) :
    ∃ P U, pivotRows A = some (P, U) ∧ Function.Bijective P ∧ ∀ i, U i = A (P i) := by
  obtain ⟨⟨P, U⟩, h1, h2, h3⟩ := forFrom_total
    (body := fun i (s : (Fin n → Fin n) × (Fin n → Fin n → R)) =>
      (findPivot s.2 i).map fun r => (swapAt s.1 r.2 i, swapAt s.2 r.2 i))
    (fun _ s => Function.Bijective s.1 ∧ ∀ i, s.2 i = A (s.1 i))
    (fun i s hs => by
      obtain ⟨v, r, h, -⟩ := findPivot_spec s.2 i
      refine ⟨_, by rw [h]; rfl, ?_, ?_⟩
      · show Function.Bijective (swapAt s.1 r i)
        rw [swapAt_eq]; exact hs.1.comp (Equiv.bijective _)
      · intro k
        show swapAt s.2 r i k = A (swapAt s.1 r i k)
        rw [swapAt_eq, swapAt_eq]; exact hs.2 _)
    0 (id, A) (Nat.zero_le _) ⟨Function.bijective_id, fun _ => rfl⟩
  exact ⟨P, U, h1, h2, h3⟩

/-- After the exchanges the first entry of the first column is its largest. -/
theorem pivotRows_first (A : Fin (n + 1) → Fin (n + 1) → R) (P U) (h : pivotRows A = some (P, U)) (j : Fin (n + 1)) :
    abs' (U j 0) ≤ abs' (U 0 0) := by
  have := forFrom_inv (n := n + 1) (body := fun i (s : (Fin (n + 1) → Fin (n + 1)) × (Fin (n + 1) → Fin (n + 1) → R)) =>
      (findPivot s.2 i).map fun (r : R × Fin (n + 1)) => (swapAt s.1 r.2 i, swapAt s.2 r.2 i))
    (fun k s => 0 < k → ∀ j, abs' (s.2 j 0) ≤ abs' (s.2 0 0))
    (fun i s s' hs hb _ => by
      obtain ⟨v, r, h, hr, hv, hmax⟩ := findPivot_spec s.2 i
      rw [h] at hb
      cases hb
      intro j
      show abs' (swapAt s.2 r i j 0) ≤ abs' (swapAt s.2 r i 0 0)
      rw [swapAt_eq]
      simp only [Function.comp]
      by_cases hi : i = 0
      · subst hi
        rw [Equiv.swap_apply_right, ← hv]
        exact hmax _ (Fin.zero_le _)
      · have hi' : 0 < i.val := Nat.pos_of_ne_zero fun h => hi (Fin.ext h)
        have h0 : Equiv.swap r i (0 : Fin (n + 1)) = 0 :=
          Equiv.swap_apply_of_ne_of_ne (fun e => by subst e; exact hi (Fin.le_zero_iff.mp hr)) (Ne.symm hi)
        rw [h0]
        exact hs hi' _)
    0 (id, A) (P, U) (Nat.zero_le _) (fun h => absurd h (lt_irrefl _)) h
  exact this (Nat.succ_pos n) j

/-! ### Elimination -/

/-- State of the elimination when column `i` has been cleared down to row `j`. -/
structure ElimInv (A0 : Fin n → Fin n → R) (i j : ℕ) (s : (Fin n → Fin n → R) × (Fin n → Fin n → R)) : Prop where
  prod : ∀ r c, ∑ k, s.1 r k * s.2 k c = A0 r c
  diag : ∀ r, s.1 r r = 1
  lzero : ∀ r c : Fin n, r ≠ c → (r < c ∨ i < c.val ∨ (c.val = i ∧ j ≤ r.val)) → s.1 r c = 0
  uzero : ∀ r c : Fin n, c < r → (c.val < i ∨ (c.val = i ∧ r.val < j)) → s.2 r c = 0

theorem elimRow_inv (A0 : Fin n → Fin n → R) (i j : Fin n) (hij : i < j) (s s') (hs : ElimInv A0 i.val j.val s)
    (h : elimRow i j s = some s') : ElimInv A0 i.val (j.val + 1) s' ∧ s'.2 i = s.2 i := by
  obtain ⟨L, U⟩ := s
  simp only [elimRow] at h
  split at h
  · cases h
  rename_i hne
  cases h
  have hji : j ≠ i := (ne_of_lt hij).symm
  have hLj : ∀ r, r ≠ j → L r j = 0 := fun r hr => hs.lzero r j hr (Or.inr (Or.inl hij))
  have hLji : L j i = 0 := hs.lzero j i hji (Or.inr (Or.inr ⟨rfl, le_rfl⟩))
  set c := U j i / U i i with hc
  have hU' : ∀ k, Function.update (Function.update U j fun k => U j k - c * U i k) j
      (Function.update (Function.update U j (fun k => U j k - c * U i k) j) i 0) k =
      if k = j then fun a => U j a - c * U i a else U k := by
    intro k
    by_cases hk : k = j
    · subst hk
      rw [Function.update_self, Function.update_self, if_pos rfl]
      funext a
      by_cases ha : a = i
      · subst ha; rw [Function.update_self, hc]; field_simp; ring
      · rw [Function.update_of_ne ha]
    · rw [Function.update_of_ne hk, Function.update_of_ne hk, if_neg hk]
  have hL' : ∀ r k, Function.update L j (Function.update (L j) i c) r k = L r k + (if r = j ∧ k = i then c else 0) := by
    intro r k
    by_cases hr : r = j
    · subst hr
      rw [Function.update_self]
      by_cases hk : k = i
      · subst hk; simp [hLji]
      · rw [Function.update_of_ne hk]; simp [hk]
    · rw [Function.update_of_ne hr]; simp [hr]
  refine ⟨⟨?_, ?_, ?_, ?_⟩, ?_⟩
  · intro r a
    have h0 := hs.prod r a
    simp only at h0 ⊢
    simp only [hU', hL']
    have e : ∀ k, (L r k + if r = j ∧ k = i then c else 0) * (if k = j then fun a => U j a - c * U i a else U k) a =
        L r k * U k a + ((if k = j then -(L r k * c * U i a) else 0) + (if k = i then (if r = j then c * U i a else 0) else 0)) := by
      intro k
      by_cases hk : k = j
      · subst hk; simp [hji]; ring
      · by_cases hk2 : k = i
        · subst hk2; by_cases hr : r = j <;> simp [hk, hr]; ring
        · simp [hk, hk2]
    simp only [e, Finset.sum_add_distrib, h0]
    by_cases hr : r = j
    · subst hr; have := hs.diag r; simp only at this; simp [this]
    · simp [hr, hLj r hr]
  · intro r
    simp only [hL']
    have := hs.diag r
    simp only at this
    rw [this, if_neg, add_zero]
    rintro ⟨h1, h2⟩; exact hji (h1 ▸ h2)
  · intro r a hra hcase
    simp only [hL']
    rw [if_neg, add_zero]
    · refine hs.lzero r a hra ?_
      rcases hcase with h | h | h
      · exact Or.inl h
      · exact Or.inr (Or.inl h)
      · exact Or.inr (Or.inr ⟨h.1, by omega⟩)
    · rintro ⟨rfl, rfl⟩
      rcases hcase with h | h | h
      · exact absurd (lt_trans h hij) (lt_irrefl _)
      · omega
      · omega
  · intro r a har hcase
    simp only [hU']
    by_cases hr : r = j
    · subst hr
      simp only [if_true]
      by_cases ha : a = i
      · subst ha; rw [hc]; field_simp; ring
      · have hai : a.val < i.val := by
          rcases hcase with h | h
          · exact h
          · exact absurd (Fin.ext h.1) ha
        have h1 := hs.uzero r a har (Or.inl hai)
        have h2 := hs.uzero i a (Fin.lt_def.mpr hai) (Or.inl hai)
        simp only at h1 h2
        rw [h1, h2]; ring
    · rw [if_neg hr]
      refine hs.uzero r a har ?_
      rcases hcase with h | h
      · exact Or.inl h
      · refine Or.inr ⟨h.1, ?_⟩
        have : r.val ≠ j.val := fun h => hr (Fin.ext h)
        omega
  · simp only [hU']
    rw [if_neg hji.symm]

omit [LinearOrder R] in
theorem ElimInv.next {A0 : Fin n → Fin n → R} {i : ℕ} {s} (hs : ElimInv A0 i n s) : ElimInv A0 (i + 1) (i + 2) s := by
  refine ⟨hs.prod, hs.diag, fun r c hrc h => hs.lzero r c hrc ?_, fun r c hcr h => hs.uzero r c hcr ?_⟩
  · rcases h with h | h | h
    · exact Or.inl h
    · exact Or.inr (Or.inl (by omega))
    · exact Or.inr (Or.inl (by omega))
  · rcases h with h | h
    · by_cases e : c.val = i
      · exact Or.inr ⟨e, r.isLt⟩
      · exact Or.inl (by omega)
    · have := Fin.lt_def.mp hcr; omega

theorem eliminate_spec (A0 : Fin n → Fin n → R) (s) (h : eliminate (fun i j => if i = j then 1 else 0) A0 = some s) :
    (∀ r c, ∑ k, s.1 r k * s.2 k c = A0 r c) ∧ (∀ r, s.1 r r = 1) ∧ (∀ r c, r < c → s.1 r c = 0) ∧ (∀ r c, c < r → s.2 r c = 0) := by
  have key := forFrom_inv (fun i s => ElimInv A0 i (i + 1) s) (fun i s s' hs hb => by
      have := forFrom_inv (fun j s => i.val < j ∧ ElimInv A0 i.val j s) (fun j s s' hs hb => by
          exact ⟨by omega, (elimRow_inv A0 i j (Fin.lt_def.mpr hs.1) s s' hs.2 hb).1⟩)
        (i.val + 1) s s' i.isLt ⟨by omega, hs⟩ hb
      exact this.2.next)
    0 _ s (Nat.zero_le _) ?_ h
  · exact ⟨key.prod, key.diag, fun r c hrc => key.lzero r c (ne_of_lt hrc) (Or.inl hrc), fun r c hcr => key.uzero r c hcr (Or.inl c.isLt)⟩
  · refine ⟨fun r c => by simp, fun r => by simp, fun r c hrc _ => by simp [hrc], fun r c _ h => ?_⟩
    have := Fin.lt_def.mp ‹c < r›; omega

/-! ### Triangular solves -/

omit [LinearOrder R] in
theorem sum_update (a : Fin n → R) (y : Fin n → V) (k : Fin n) (v : V) :
    ∑ j, a j • Function.update y k v j = ∑ j, a j • y j + a k • (v - y k) := by
  have e : ∀ j, a j • Function.update y k v j = a j • y j + if j = k then a k • (v - y k) else 0 := by
    intro j
    by_cases h : j = k
    · subst h; simp [smul_sub]
    · simp [h]
  simp only [e, Finset.sum_add_distrib, Finset.sum_ite_eq', Finset.mem_univ, if_true]

theorem foldl_sub {m : ℕ} (f : Fin m → V) (c : V) : Fin.foldl m (fun c j => c - f j) c = c - ∑ j, f j := by
  induction m generalizing c with
  | zero => simp
  | succ m ih => rw [Fin.foldl_succ_last, ih, Fin.sum_univ_castSucc]; abel

theorem sum_prefix (i : Fin n) (f : Fin n → V) (hf : ∀ j, i ≤ j → f j = 0) :
    ∑ j : Fin i.val, f (j.castLE i.isLt.le) = ∑ j, f j := by
  have hinj : Function.Injective (fun j : Fin i.val => j.castLE i.isLt.le) := fun a b h => by
    have := congrArg Fin.val h; exact Fin.ext (by simpa using this)
  rw [← Finset.sum_subset (Finset.subset_univ (Finset.univ.image fun j : Fin i.val => j.castLE i.isLt.le))]
  · rw [Finset.sum_image fun a _ b _ h => hinj h]
  · intro j _ hj
    refine hf j ?_
    by_contra hlt
    exact hj (Finset.mem_image.mpr ⟨⟨j.val, Fin.lt_def.mp (not_le.mp hlt)⟩, Finset.mem_univ _, Fin.ext rfl⟩)

theorem solveLower_spec (L : Fin n → Fin n → R) (b : Fin n → V) (P : Fin n → Fin n) (hd : ∀ r, L r r = 1)
    (hl : ∀ r c, r < c → L r c = 0) : ∃ y, solveLower L b P = some y ∧ ∀ i, ∑ j, L i j • y j = b (P i) := by
  obtain ⟨y, h1, -, h2⟩ := forFrom_total (n := n) (body := fun i (y : Fin n → V) =>
      let c := Fin.foldl i.val (fun c (j : Fin i.val) => c - L i (j.castLE i.isLt.le) • y (j.castLE i.isLt.le)) (b (P i))
      if L i i = 0 then none else some (Function.update y i ((L i i)⁻¹ • c)))
    (fun k y => (∀ j : Fin n, k ≤ j.val → y j = 0) ∧ ∀ i : Fin n, i.val < k → ∑ j, L i j • y j = b (P i))
    (fun i y hy => by
      dsimp only
      rw [if_neg (by rw [hd]; exact one_ne_zero), foldl_sub (fun j : Fin i.val => L i (j.castLE i.isLt.le) • y (j.castLE i.isLt.le)),
        sum_prefix i (fun j => L i j • y j) (fun j hj => by rw [hy.1 j (Fin.le_def.mp hj), smul_zero]), hd, inv_one, one_smul]
      refine ⟨_, rfl, ?_, ?_⟩
      · intro j hj
        have : j ≠ i := fun h => by subst h; omega
        rw [Function.update_of_ne this]; exact hy.1 j (by omega)
      · intro r hr
        rw [sum_update]
        by_cases hri : r = i
        · subst hri; rw [hd, one_smul, hy.1 r le_rfl]; abel
        · have hlt : r.val < i.val := by
            have : r.val ≠ i.val := fun h => hri (Fin.ext h)
            omega
          rw [hl r i (Fin.lt_def.mpr hlt), zero_smul, add_zero]; exact hy.2 r hlt)
    0 (fun _ => 0) (Nat.zero_le _) ⟨fun _ _ => rfl, fun i hi => by omega⟩
  exact ⟨y, h1, fun i => h2 i i.isLt⟩

theorem forFrom_sub (g : Fin n → V) (lo : ℕ) (hlo : lo ≤ n) (c : V) :
    forFrom n (fun j c => some (c - g j)) lo c = some (c - ∑ j : Fin n, if lo ≤ j.val then g j else 0) := by
  obtain ⟨s, h1, -, h2⟩ := forFrom_total (n := n) (body := fun j c => some (c - g j))
    (fun k s => lo ≤ k ∧ s = c - ∑ j : Fin n, if lo ≤ j.val ∧ j.val < k then g j else 0)
    (fun k s hs => by
      refine ⟨_, rfl, by omega, ?_⟩
      have hk := hs.1
      have e : ∀ j : Fin n, (if lo ≤ j.val ∧ j.val < k.val + 1 then g j else 0) =
          (if lo ≤ j.val ∧ j.val < k.val then g j else 0) + if j = k then g k else 0 := by
        intro j
        by_cases hj : j = k
        · subst hj; simp [hk]
        · have : j.val ≠ k.val := fun h => hj (Fin.ext h)
          have e2 : (j.val < k.val + 1) ↔ j.val < k.val := by omega
          simp [hj, e2]
      simp only [e, Finset.sum_add_distrib, Finset.sum_ite_eq', Finset.mem_univ, if_true, hs.2]
      abel)
    lo c hlo ⟨le_rfl, by
      have : ∀ j : Fin n, (if lo ≤ j.val ∧ j.val < lo then g j else 0) = 0 := fun j => if_neg (by omega)
      simp only [this, Finset.sum_const_zero, sub_zero]⟩
  rw [h1, h2]
  simp

theorem upperStep_spec (U : Fin n → Fin n → R) (y : Fin n → V) (hu : ∀ r c, c < r → U r c = 0) (i : Fin n) (x : Fin n → V)
    (hd : U i i ≠ 0) (hx0 : ∀ j, j ≤ i → x j = 0) (hx : ∀ r, i < r → ∑ j, U r j • x j = y r) :
    ∃ x', upperStep U y i x = some x' ∧ (∀ j, j < i → x' j = 0) ∧ ∀ r, i ≤ r → ∑ j, U r j • x' j = y r := by
  unfold upperStep
  rw [forFrom_sub (fun j => U i j • x j) (i.val + 1) i.isLt, Option.bind_some, if_neg hd]
  refine ⟨_, rfl, ?_, ?_⟩
  · intro j hj
    rw [Function.update_of_ne (ne_of_lt hj)]; exact hx0 j hj.le
  · intro r hr
    rw [sum_update]
    by_cases hri : r = i
    · subst hri
      have e : ∀ j : Fin n, (if r.val + 1 ≤ j.val then U r j • x j else 0) = U r j • x j := by
        intro j
        by_cases h : r.val + 1 ≤ j.val
        · rw [if_pos h]
        · rw [if_neg h, hx0 j (Fin.le_def.mpr (by omega)), smul_zero]
      simp only [e]
      rw [hx0 r le_rfl, sub_zero, smul_smul, mul_inv_cancel₀ hd, one_smul]; abel
    · have hlt : i < r := lt_of_le_of_ne hr (Ne.symm hri)
      rw [hu r i hlt, zero_smul, add_zero]; exact hx r hlt

theorem solveUpper_spec (U : Fin n → Fin n → R) (y : Fin n → V) (hu : ∀ r c, c < r → U r c = 0) (hd : ∀ r, U r r ≠ 0) :
    ∃ x, solveUpper U y = some x ∧ ∀ i, ∑ j, U i j • x j = y i := by
  obtain ⟨x, h1, -, h2⟩ := forFrom_total (n := n) (body := fun k => upperStep U y k.rev)
    (fun k x => (∀ j : Fin n, j.val + k < n → x j = 0) ∧ ∀ r : Fin n, n ≤ r.val + k → ∑ j, U r j • x j = y r)
    (fun k x hx => by
      have hv : k.rev.val = n - (k.val + 1) := Fin.val_rev k
      obtain ⟨x', e, g1, g2⟩ := upperStep_spec U y hu k.rev x (hd _)
        (fun j hj => hx.1 j (by have := Fin.le_def.mp hj; omega)) (fun r hr => hx.2 r (by have := Fin.lt_def.mp hr; omega))
      exact ⟨x', e, fun j hj => g1 j (Fin.lt_def.mpr (by omega)), fun r hr => g2 r (Fin.le_def.mpr (by omega))⟩)
    0 (fun _ => 0) (Nat.zero_le _) ⟨fun _ _ => rfl, fun r hr => by omega⟩
  exact ⟨x, h1, fun i => h2 i (by omega)⟩

/-! ### The whole factorisation -/

theorem factorizeLu_spec (A : Fin n → Fin n → R) (f : Factors R n) (h : factorizeLu A = some f) :
    Function.Bijective f.P ∧ (∀ r c, ∑ k, f.L r k * f.U k c = A (f.P r) c) ∧ (∀ r, f.L r r = 1) ∧ (∀ r c, r < c → f.L r c = 0) ∧
      (∀ r c, c < r → f.U r c = 0) := by
  obtain ⟨P, U, hp, hb, hU⟩ := pivotRows_spec A
  rw [factorizeLu, hp, Option.bind_some] at h
  obtain ⟨t, ht, rfl⟩ := Option.map_eq_some_iff.mp h
  obtain ⟨g1, g2, g3, g4⟩ := eliminate_spec U t ht
  exact ⟨hb, fun r c => by rw [g1, hU], g2, g3, g4⟩

theorem factors_diag_ne_zero (A : Matrix (Fin n) (Fin n) R) (f : Factors R n) (h : factorizeLu A = some f) (hA : A.det ≠ 0) (r : Fin n) :
    f.U r r ≠ 0 := by
  obtain ⟨hb, hprod, hd, hl, hu⟩ := factorizeLu_spec A f h
  have e : (Matrix.of f.L) * (Matrix.of f.U) = A.submatrix (Equiv.ofBijective f.P hb) id := by
    ext i j; rw [Matrix.mul_apply]; exact hprod i j
  have hdet := congrArg Matrix.det e
  rw [Matrix.det_mul, Matrix.det_permute, Matrix.det_of_isLowerTriangular (Matrix.of f.L) (fun i j hij => hl i j hij),
    Matrix.det_of_isUpperTriangular (M := Matrix.of f.U) (fun i j hij => hu i j hij)] at hdet
  simp only [Matrix.of_apply, hd, Finset.prod_const_one, one_mul] at hdet
  intro h0
  rw [Finset.prod_eq_zero (f := fun i => f.U i i) (Finset.mem_univ r) h0] at hdet
  have hs : ((Equiv.Perm.sign (Equiv.ofBijective f.P hb) : ℤ) : R) ≠ 0 := by
    rcases Int.units_eq_one_or (Equiv.Perm.sign (Equiv.ofBijective f.P hb)) with h | h <;> simp [h]
  exact mul_ne_zero hs hA hdet.symm

theorem solveFactors_spec (A : Matrix (Fin n) (Fin n) R) (f : Factors R n) (h : factorizeLu A = some f) (hA : A.det ≠ 0) (b : Fin n → V) :
    ∃ x, solveFactors f b = some x ∧ ∀ i, ∑ j, A i j • x j = b i := by
  obtain ⟨hb, hprod, hd, hl, hu⟩ := factorizeLu_spec A f h
  obtain ⟨y, hy1, hy2⟩ := solveLower_spec f.L b f.P hd hl
  obtain ⟨x, hx1, hx2⟩ := solveUpper_spec f.U y hu (factors_diag_ne_zero A f h hA)
  refine ⟨x, by rw [solveFactors, hy1]; exact hx1, fun i => ?_⟩
  obtain ⟨r, rfl⟩ := hb.2 i
  rw [← hy2 r]
  simp only [← hprod, ← hx2, Finset.sum_smul, Finset.smul_sum, smul_smul]
  exact Finset.sum_comm

end Serac.LU
