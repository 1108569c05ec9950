import Verif.Model.Csr
import Verif.Proofs.Restriction
import Mathlib.Data.List.Sort
import Mathlib.Data.List.Nodup
/-! Helper lemmas about the CSR tables. -/

namespace Serac.Csr

theorem mem_keys {e : Entry} : ∀ {l : List Entry}, e ∈ keys l ↔ e ∈ l
  | [] => by simp [keys]
  | a :: l => by
    have ih := mem_keys (e := e) (l := l)
    unfold keys
    split
    · rename_i h
      rw [ih, List.mem_cons]
      constructor
      · exact Or.inr
      · rintro (rfl | h'); exacts [h, h']
    · rw [List.mem_cons, ih, List.mem_cons]

theorem keys_nodup : ∀ l : List Entry, (keys l).Nodup
  | [] => by simp [keys]
  | a :: l => by
    unfold keys
    split
    · exact keys_nodup l
    · rename_i h
      exact List.nodup_cons.mpr ⟨fun h' => h (mem_keys.mp h'), keys_nodup l⟩

theorem entryLt_iff {a b : Entry} : entryLt a b = true ↔ a.1 < b.1 ∨ (a.1 = b.1 ∧ a.2 < b.2) := by
  simp [entryLt]

theorem mem_sorted {e : Entry} {l : List Entry} : e ∈ sortedEntries l ↔ e ∈ l := by
  unfold sortedEntries
  rw [List.mem_mergeSort, mem_keys]

theorem sorted_pairwise (l : List Entry) :
    (sortedEntries l).Pairwise fun a b => a.1 < b.1 ∨ (a.1 = b.1 ∧ a.2 < b.2) := by
  have h1 : (sortedEntries l).Pairwise fun a b => (!entryLt b a) = true := by
    apply List.pairwise_mergeSort
    · intro a b c h1 h2
      simp only [Bool.not_eq_true', ← Bool.not_eq_true, entryLt_iff] at *
      omega
    · intro a b
      simp only [Bool.or_eq_true, Bool.not_eq_true', ← Bool.not_eq_true, entryLt_iff]
      omega
  have h2 : (sortedEntries l).Nodup := (List.mergeSort_perm _ _).nodup_iff.mpr (keys_nodup l)
  have := List.Pairwise.and h1 h2
  apply this.imp
  intro a b hab
  simp only [Bool.not_eq_true', ← Bool.not_eq_true, entryLt_iff] at hab
  have hne : ¬ (a.1 = b.1 ∧ a.2 = b.2) := fun h => hab.2 (Prod.ext h.1 h.2)
  omega

theorem sorted_nodup (l : List Entry) : (sortedEntries l).Nodup :=
  (List.mergeSort_perm _ _).nodup_iff.mpr (keys_nodup l)

/-- number of entries in rows before `r` -/
def before (es : List Entry) (r : Nat) : Nat := es.countP fun e => e.1 < r

theorem fillRows_spec (row i : Nat) : ∀ (d prev : Nat) (v : Vec Nat), row = prev + d → row < v.size →
    ∃ v', (List.range' prev d).foldlM (fun v j => v.set? (j + 1) i) v = some v' ∧ v'.size = v.size ∧
      ∀ r, v'.val r = if prev < r ∧ r ≤ row then i else v.val r
  | 0, prev, v, h, _ => by
    refine ⟨v, rfl, rfl, fun r => ?_⟩
    rw [if_neg (by omega)]
  | d + 1, prev, v, h, hs => by
    have hset : v.set? (prev + 1) i = some ⟨v.size, fun k => if k = prev + 1 then i else v.val k⟩ := by
      simp only [Vec.set?]; rw [if_pos (by omega)]
    obtain ⟨v', h1, h2, h3⟩ := fillRows_spec row i d (prev + 1)
      ⟨v.size, fun k => if k = prev + 1 then i else v.val k⟩ (by omega) hs
    refine ⟨v', ?_, h2, fun r => ?_⟩
    · rw [List.range'_succ, List.foldlM_cons, hset]; exact h1
    · rw [h3 r]
      by_cases hr : r = prev + 1
      · subst hr; simp; omega
      · simp only [hr, if_false]
        by_cases hc : prev + 1 < r ∧ r ≤ row
        · rw [if_pos hc, if_pos (by omega)]
        · rw [if_neg hc, if_neg (by omega)]

theorem countP_zero_of {p : Entry → Bool} {l : List Entry} (h : ∀ e ∈ l, p e = false) : l.countP p = 0 := by
  rw [List.countP_eq_zero]; intro a ha; simp [h a ha]

theorem countP_full_of {p : Entry → Bool} {l : List Entry} (h : ∀ e ∈ l, p e = true) : l.countP p = l.length := by
  rw [List.countP_eq_length]; exact h

/-- Row of the last entry. -/
def lastRow : Nat → List Entry → Nat
  | p, [] => p
  | _, e :: r => lastRow e.1 r

theorem lastRow_spec : ∀ (rest : List Entry) (e0 : Entry), (e0 :: rest).Pairwise (fun a b => a.1 ≤ b.1) →
    (∀ a ∈ e0 :: rest, a.1 ≤ lastRow e0.1 rest) ∧ ∃ e ∈ e0 :: rest, e.1 = lastRow e0.1 rest
  | [], e0, _ => by simp [lastRow]
  | b :: rest, e0, h => by
    rw [List.pairwise_cons] at h
    have ih := lastRow_spec rest b h.2
    refine ⟨?_, ?_⟩
    · intro a ha
      rcases List.mem_cons.mp ha with rfl | ha
      · exact Nat.le_trans (h.1 b (by simp)) (ih.1 b (by simp))
      · exact ih.1 a ha
    · obtain ⟨e, he, h'⟩ := ih.2; exact ⟨e, List.mem_cons_of_mem _ he, h'⟩

/-- Invariant of the row pointer loop. -/
theorem rowLoop_spec (es : List Entry) : ∀ (rest done : List Entry) (prev : Nat) (v : Vec Nat),
    es = done ++ rest →
    (∀ e ∈ done, e.1 ≤ prev) → (∀ e ∈ rest, prev ≤ e.1) → (∀ e ∈ rest, e.1 < v.size) →
    rest.Pairwise (fun a b => a.1 ≤ b.1) →
    (∀ r, v.val r = if r ≤ prev then before es r else 0) →
    ∃ v', rowLoop prev done.length rest v = some v' ∧ v'.size = v.size ∧
      ∀ r, v'.val r = if r ≤ lastRow prev rest then before es r else 0 := by
  intro rest
  induction rest with
  | nil => intro done prev v _ _ _ _ _ hv; exact ⟨v, rfl, rfl, hv⟩
  | cons e rest ih =>
    intro done prev v hes hd hr hsz hp hv
    have hpe : prev ≤ e.1 := hr e (by simp)
    obtain ⟨v1, h1, h2, h3⟩ := fillRows_spec e.1 done.length (e.1 - prev) prev v (by omega) (hsz e (by simp))
    rw [List.pairwise_cons] at hp
    have hv1 : ∀ r, v1.val r = if r ≤ e.1 then before es r else 0 := by
      intro r
      rw [h3 r]
      by_cases hc : prev < r ∧ r ≤ e.1
      · rw [if_pos hc, if_pos hc.2]
        subst hes
        unfold before
        rw [List.countP_append, countP_full_of, countP_zero_of]
        · simp
        · intro a ha
          rcases List.mem_cons.mp ha with rfl | ha
          · simp; omega
          · have := hp.1 a ha; simp; omega
        · intro a ha; have := hd a ha; simp; omega
      · rw [if_neg hc, hv r]
        by_cases hr' : r ≤ prev
        · rw [if_pos hr', if_pos (by omega)]
        · rw [if_neg hr', if_neg (by omega)]
    obtain ⟨v', g1, g2, g3⟩ := ih (done ++ [e]) e.1 v1 (by rw [hes]; simp)
      (by
        intro a ha
        rcases List.mem_append.mp ha with ha | ha
        · have := hd a ha; omega
        · simp only [List.mem_singleton] at ha; subst ha; exact Nat.le_refl _)
      (fun a ha => hp.1 a ha) (fun a ha => by rw [h2]; exact hsz a (List.mem_cons_of_mem _ ha)) hp.2 hv1
    refine ⟨v', ?_, g2.trans h2, ?_⟩
    · have : fillRows prev e.1 done.length v = some v1 := h1
      simp only [rowLoop, this, Option.bind_some]
      simpa using g1
    · exact g3

/-- In a list sorted by row, the entries of rows before `r` come first. -/
theorem before_iff : ∀ (es : List Entry) (_ : es.Pairwise fun a b => a.1 ≤ b.1) (r k : Nat) (e : Entry),
    es[k]? = some e → (e.1 < r ↔ k < before es r)
  | [], _, _, _, _, h => by simp at h
  | a :: es, hp, r, k, e, h => by
    rw [List.pairwise_cons] at hp
    unfold before
    rw [List.countP_cons]
    cases k with
    | zero =>
      simp only [List.getElem?_cons_zero, Option.some.injEq] at h
      subst h
      by_cases ha : a.1 < r
      · simp [ha]
      · simp only [ha, decide_false, Bool.false_eq_true, if_false, Nat.add_zero, false_iff, Nat.not_lt, Nat.le_zero]
        apply countP_zero_of
        intro b hb; have := hp.1 b hb; simp; omega
    | succ k =>
      rw [List.getElem?_cons_succ] at h
      have ih := before_iff es hp.2 r k e h
      have hmem : e ∈ es := List.mem_of_getElem? h
      have hae := hp.1 e hmem
      unfold before at ih
      by_cases ha : a.1 < r
      · simp [ha, ih]
      · have h0 : es.countP (fun e => decide (e.1 < r)) = 0 := by
          apply countP_zero_of; intro b hb; have := hp.1 b hb; simp; omega
        simp only [ha, h0]; simp; omega

theorem lut_fold (l : List (Entry × Nat)) : ∀ (f : Entry → Option Nat),
    (l.map Prod.fst).Nodup → ∀ e,
    (∀ i, (e, i) ∈ l → l.foldl (fun lut ei => fun e => if e = ei.1 then some ei.2 else lut e) f e = some i) ∧
    (e ∉ l.map Prod.fst → l.foldl (fun lut ei => fun e => if e = ei.1 then some ei.2 else lut e) f e = f e) := by
  induction l with
  | nil => intro f _ e; simp
  | cons a l ih =>
    intro f hnd e
    simp only [List.map_cons, List.nodup_cons] at hnd
    have := ih (fun e => if e = a.1 then some a.2 else f e) hnd.2 e
    constructor
    · intro i hi
      rcases List.mem_cons.mp hi with h | h
      · have hn : e ∉ l.map Prod.fst := by rw [show e = a.1 from congrArg Prod.fst h]; exact hnd.1
        rw [List.foldl_cons, this.2 hn, if_pos (congrArg Prod.fst h)]
        rw [← h]
      · exact this.1 i h
    · intro hn
      simp only [List.map_cons, List.mem_cons, not_or] at hn
      rw [List.foldl_cons, this.2 hn.2, if_neg hn.1]

theorem lutLoop_spec (es : List Entry) (hnd : es.Nodup) (k : Nat) (e : Entry) (h : es[k]? = some e) :
    lutLoop es e = some k := by
  unfold lutLoop
  have hfst : ((es.zipIdx.drop 1).map Prod.fst) = es.drop 1 := by
    rw [List.map_drop, List.zipIdx_map_fst]
  have hnd' : ((es.zipIdx.drop 1).map Prod.fst).Nodup := by
    rw [hfst]; exact hnd.sublist (List.drop_sublist _ _)
  have := lut_fold (es.zipIdx.drop 1) (fun e => if e ∈ es then some 0 else none) hnd' e
  cases k with
  | zero =>
    have hn : e ∉ (es.zipIdx.drop 1).map Prod.fst := by
      rw [hfst]
      cases es with
      | nil => simp at h
      | cons a es =>
        simp only [List.getElem?_cons_zero, Option.some.injEq] at h
        subst h
        simpa using (List.nodup_cons.mp hnd).1
    rw [this.2 hn, if_pos (List.mem_of_getElem? h)]
  | succ k =>
    apply this.1
    rw [List.mem_iff_getElem?]
    refine ⟨k, ?_⟩
    rw [List.getElem?_drop, List.getElem?_zipIdx, Nat.add_comm 1 k, h]
    simp

theorem lutLoop_none (es : List Entry) (hnd : es.Nodup) (e : Entry) (h : e ∉ es) : lutLoop es e = none := by
  unfold lutLoop
  have hfst : ((es.zipIdx.drop 1).map Prod.fst) = es.drop 1 := by
    rw [List.map_drop, List.zipIdx_map_fst]
  have hnd' : ((es.zipIdx.drop 1).map Prod.fst).Nodup := by
    rw [hfst]; exact hnd.sublist (List.drop_sublist _ _)
  have := (lut_fold (es.zipIdx.drop 1) (fun e => if e ∈ es then some 0 else none) hnd' e).2
  rw [this, if_neg h]
  rw [hfst]; exact fun h' => h (List.mem_of_mem_drop h')

/-- What `init` returns, in terms of the sorted entries. -/
theorem init_spec (lsize : Nat) (emitted : List Entry) (hne : emitted ≠ []) (hrow : ∀ e ∈ emitted, e.1 < lsize) :
    ∃ t, init lsize emitted = some t ∧ t.nnz = (sortedEntries emitted).length ∧
      t.colInd = (sortedEntries emitted).map Prod.snd ∧
      t.lut = lutLoop (sortedEntries emitted) ∧ t.rowPtr.size = lsize + 1 ∧
      ∀ r, t.rowPtr.val r =
        if r = lsize then (sortedEntries emitted).length
        else if ∃ e ∈ emitted, r ≤ e.1 then before (sortedEntries emitted) r else 0 := by
  have hsort := sorted_pairwise emitted
  cases hs : sortedEntries emitted with
  | nil =>
    exfalso
    obtain ⟨a, l, rfl⟩ := List.exists_cons_of_ne_nil hne
    have : a ∈ sortedEntries (a :: l) := mem_sorted.mpr (by simp)
    rw [hs] at this; cases this
  | cons e0 rest =>
    have hlt : ∀ e ∈ e0 :: rest, e.1 < lsize := fun e he => hrow e (mem_sorted.mp (by rw [hs]; exact he))
    rw [hs] at hsort
    have hle : (e0 :: rest).Pairwise fun a b => a.1 ≤ b.1 := hsort.imp (by intro a b h; omega)
    have hle' := List.pairwise_cons.mp hle
    obtain ⟨v, h1, h2, h3⟩ := rowLoop_spec (e0 :: rest) rest [e0] e0.1 ⟨lsize + 1, fun _ => 0⟩ rfl
      (by simp) (fun e he => hle'.1 e he)
      (fun e he => by have := hlt e (List.mem_cons_of_mem _ he); simp only; omega) hle'.2
      (by
        intro r
        simp only
        by_cases hr : r ≤ e0.1
        · rw [if_pos hr]; symm
          apply countP_zero_of
          intro a ha
          rcases List.mem_cons.mp ha with rfl | ha
          · simpa using hr
          · have := hle'.1 a ha; simp; omega
        · rw [if_neg hr])
    have hset : v.set? lsize (rest.length + 1) =
        some ⟨v.size, fun k => if k = lsize then rest.length + 1 else v.val k⟩ := by
      simp [Vec.set?, h2]
    refine ⟨_, by
      unfold init
      rw [hs]
      simp only [List.length_singleton] at h1
      simp only [h1, hset, Option.bind_eq_bind, Option.bind_some]
      rfl, rfl, rfl, rfl, h2, ?_⟩
    intro r
    simp only
    by_cases hr : r = lsize
    · simp [hr]
    · rw [if_neg hr, if_neg hr, h3 r]
      have hlast : (∃ e ∈ emitted, r ≤ e.1) ↔ r ≤ lastRow e0.1 rest := by
        have hl := lastRow_spec rest e0 hle
        constructor
        · rintro ⟨e, he, h⟩
          have := hl.1 e (by rw [← hs]; exact mem_sorted.mpr he)
          omega
        · intro h
          obtain ⟨e, he, h'⟩ := hl.2
          exact ⟨e, mem_sorted.mp (by rw [hs]; exact he), by omega⟩
      by_cases hc : ∃ e ∈ emitted, r ≤ e.1
      · rw [if_pos hc, if_pos (hlast.mp hc)]
      · rw [if_neg hc, if_neg (fun h => hc (hlast.mpr h))]

end Serac.Csr
