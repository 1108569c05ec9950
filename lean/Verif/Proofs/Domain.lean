import Verif.Model.Domain
import Mathlib.Tactic.Tauto
/-! Helper lemmas for C10 and C11. -/
namespace Serac.Dom

theorem foldlM_some {α β : Type} (f : α → β → Option α) (h : α → β → α) (l : List β)
    (hf : ∀ x ∈ l, ∀ s, f s x = some (h s x)) : ∀ s, l.foldlM f s = some (l.foldl h s) := by
  induction l with
  | nil => intro s; rfl
  | cons a l ih =>
    intro s
    rw [List.foldlM_cons, hf a (by simp)]
    exact ih (fun x hx => hf x (by simp [hx])) _

theorem mapOpt_some {α β : Type} (f : α → Option β) (h : α → β) (l : List α) (hf : ∀ x ∈ l, f x = some (h x)) :
    mapOpt f l = some (l.map h) := by
  induction l with
  | nil => rfl
  | cons a l ih => simp [mapOpt, hf a (by simp), ih (fun x hx => hf x (by simp [hx]))]

/-- Positions of a list of vertices. -/
def pts {R : Type} (m : Mesh R) (d : Nat) (vs : List Nat) : List (List R) :=
  vs.map fun v => (List.range d).map fun j => m.coord v j

theorem flat_get {R : Type} (m : Mesh R) (d v j : Nat) (hd : m.sdim = d) (hv : v < m.nv) (hj : j < d) :
    m.flat.get? (j * m.nv + v) = some (m.coord v j) := by
  have hlt : j * m.nv + v < m.nv * m.sdim := by
    have : (j + 1) * m.nv ≤ d * m.nv := Nat.mul_le_mul_right _ hj
    rw [hd, Nat.mul_comm m.nv d, Nat.succ_mul] at *; omega
  simp only [Mesh.flat, Vec.get?, hlt, if_true]
  rw [Nat.mul_comm j, Nat.mul_add_mod, Nat.mod_eq_of_lt hv, Nat.mul_add_div (by omega), Nat.div_eq_of_lt hv, Nat.add_zero]

theorem gather_eq {R : Type} (m : Mesh R) (d : Nat) (hd : m.sdim = d) (vs : List Nat) (hv : ∀ v ∈ vs, v < m.nv) :
    gather d m.flat vs = some (pts m d vs) := by
  unfold gather pts
  apply mapOpt_some
  intro v hvm
  apply mapOpt_some
  intro j hj
  have hj' := List.mem_range.mp hj
  have : m.flat.size / d = m.nv := by
    show m.nv * m.sdim / d = m.nv
    rw [hd]; exact Nat.mul_div_cancel _ (by omega)
  rw [this]; exact flat_get m d v j hd (hv v hvm) hj'

/-- What each entity does: `none` is skipped, `some (g, add)` is filed under `g`, and added if `add`. -/
abbrev Item := Option (Geom × Bool)

def runItem (s : Loop) (it : Item) (i : Nat) : Loop := match it with | none => s | some ga => s.file ga.1 ga.2 i

/-- Numbers of the selected entities of one geometry. -/
def chosen (n : Nat) (item : Nat → Item) (g : Geom) : List Nat :=
  (List.range n).filter fun i => item i == some (g, true)

/-- How many entities of geometry `g` come before entity `i`. -/
def rank (item : Nat → Item) (g : Geom) (i : Nat) : Nat :=
  ((List.range i).filter fun k => (item k).map Prod.fst == some g).length

theorem run_spec (n : Nat) (item : Nat → Item) (d : Nat) (t : DType) :
    let s := (List.range n).foldl (fun s i => runItem s (item i) i) ⟨fun _ => 0, Domain.empty d t⟩
    s.dom.dim = d ∧ s.dom.type = t ∧ (∀ g, s.cnt g = rank item g n) ∧ (∀ g, s.dom.mfemIds g = chosen n item g) ∧
      ∀ g, s.dom.ids g = (chosen n item g).map (rank item g) := by
  induction n with
  | zero => simp [Domain.empty, rank, chosen]
  | succ n ih =>
    simp only [List.range_succ, List.foldl_append, List.foldl_cons, List.foldl_nil] at ih ⊢
    obtain ⟨h1, h2, h3, h4, h5⟩ := ih
    generalize (List.range n).foldl (fun s i => runItem s (item i) i) ⟨fun _ => 0, Domain.empty d t⟩ = s at *
    have hrank : ∀ g, rank item g (n + 1) = rank item g n + (if (item n).map Prod.fst == some g then 1 else 0) := by
      intro g; simp only [rank, List.range_succ, List.filter_append, List.length_append]
      congr 1
      by_cases h : ((item n).map Prod.fst == some g) = true <;> simp [h]
    have hch : ∀ g, chosen (n + 1) item g = chosen n item g ++ (if item n == some (g, true) then [n] else []) := by
      intro g; simp only [chosen, List.range_succ, List.filter_append]
      congr 1
      by_cases h : (item n == some (g, true)) = true <;> simp [h]
    cases hit : item n with
    | none =>
      simp only [runItem]
      refine ⟨h1, h2, fun g => ?_, fun g => ?_, fun g => ?_⟩
      · rw [hrank, hit, h3]; simp
      · rw [hch, hit, h4]; simp
      · rw [hch, hit, h5]; simp
    | some ga =>
      obtain ⟨g0, b⟩ := ga
      simp only [runItem, Loop.file]
      cases b with
      | false =>
        refine ⟨h1, h2, fun g => ?_, fun g => ?_, fun g => ?_⟩
        · rw [hrank, hit, h3]
          by_cases hg : g = g0
          · subst hg; simp
          · simp [hg, Ne.symm hg]
        · rw [hch, hit]; simp [h4]
        · rw [hch, hit]; simp [h5]
      | true =>
        simp only [if_true]
        refine ⟨h1, h2, fun g => ?_, fun g => ?_, fun g => ?_⟩
        · rw [hrank, hit, h3]
          by_cases hg : g = g0
          · subst hg; simp
          · simp [hg, Ne.symm hg]
        · rw [hch, hit]
          by_cases hg : g = g0
          · subst hg; simp [push, h4]
          · simp [push, h4, hg, Ne.symm hg]
        · rw [hch, hit]
          by_cases hg : g = g0
          · subst hg; simp [push, h5, h3]
          · simp [push, h5, hg, Ne.symm hg]

def runAllItem (s : Loop) (it : Item) : Loop := match it with | none => s | some ga => s.fileAll ga.1

theorem runAll_spec (n : Nat) (item : Nat → Item) (hit : ∀ i < n, ∀ ga, item i = some ga → ga.2 = true) (d : Nat) (t : DType) :
    let s := (List.range n).foldl (fun s i => runAllItem s (item i))
      ⟨fun _ => 0, Domain.empty d t⟩
    s.dom.dim = d ∧ s.dom.type = t ∧ (∀ g, s.cnt g = rank item g n) ∧ (∀ g, s.dom.mfemIds g = []) ∧
      ∀ g, s.dom.ids g = (chosen n item g).map (rank item g) := by
  induction n with
  | zero => simp [Domain.empty, rank, chosen]
  | succ n ih =>
    simp only [List.range_succ, List.foldl_append, List.foldl_cons, List.foldl_nil] at ih ⊢
    obtain ⟨h1, h2, h3, h4, h5⟩ := ih (fun i hi => hit i (by omega))
    generalize (List.range n).foldl (fun s i => runAllItem s (item i))
      ⟨fun _ => 0, Domain.empty d t⟩ = s at *
    have hrank : ∀ g, rank item g (n + 1) = rank item g n + (if (item n).map Prod.fst == some g then 1 else 0) := by
      intro g; simp only [rank, List.range_succ, List.filter_append, List.length_append]
      congr 1
      by_cases h : ((item n).map Prod.fst == some g) = true <;> simp [h]
    have hch : ∀ g, chosen (n + 1) item g = chosen n item g ++ (if item n == some (g, true) then [n] else []) := by
      intro g; simp only [chosen, List.range_succ, List.filter_append]
      congr 1
      by_cases h : (item n == some (g, true)) = true <;> simp [h]
    have hn := hit n (by omega)
    cases hit' : item n with
    | none =>
      simp only [runAllItem]
      refine ⟨h1, h2, fun g => ?_, fun g => ?_, fun g => ?_⟩
      · rw [hrank, hit', h3]; simp
      · exact h4 g
      · rw [hch, hit', h5]; simp
    | some ga =>
      obtain ⟨g0, b⟩ := ga
      obtain rfl : b = true := hn _ hit'
      simp only [runAllItem, Loop.fileAll]
      refine ⟨h1, h2, fun g => ?_, fun g => ?_, fun g => ?_⟩
      · rw [hrank, hit', h3]
        by_cases hg : g = g0
        · subst hg; simp
        · simp [hg, Ne.symm hg]
      · exact h4 g
      · rw [hch, hit']
        by_cases hg : g = g0
        · subst hg; simp [push, h5, h3]
        · simp [push, h5, hg, Ne.symm hg]

/-- A fold over `zipIdx` is a fold over positions. -/
theorem foldl_zipIdx {α β : Type} (l : List β) (f : α → β → Nat → α) (dflt : β) (s : α) :
    l.zipIdx.foldl (fun s xi => f s xi.1 xi.2) s = (List.range l.length).foldl (fun s i => f s (l.getD i dflt) i) s := by
  have : l.zipIdx = (List.range l.length).map fun i => (l.getD i dflt, i) := by
    apply List.ext_getElem
    · simp
    · intro i h1 h2
      have hi : i < l.length := by simpa using h1
      simp [List.getD, hi]
  rw [this, List.foldl_map]

theorem chosen_sorted (n : Nat) (item : Nat → Item) (g : Geom) : (chosen n item g).Pairwise (· < ·) :=
  List.pairwise_lt_range.filter _

theorem rank_mono (item : Nat → Item) (g : Geom) (i j : Nat) (hij : i < j) (hi : (item i).map Prod.fst = some g) :
    rank item g i < rank item g j := by
  have hstep : ∀ j, i + 1 ≤ j → rank item g (i + 1) ≤ rank item g j := by
    intro j hj
    induction j with
    | zero => omega
    | succ j ih =>
      by_cases h : i = j
      · subst h; exact Nat.le_refl _
      · refine Nat.le_trans (ih (by omega)) ?_
        simp [rank, List.range_succ, List.filter_append]
  refine Nat.lt_of_lt_of_le ?_ (hstep j hij)
  simp [rank, List.range_succ, List.filter_append, hi]

theorem chosen_rank_sorted (n : Nat) (item : Nat → Item) (g : Geom) :
    ((chosen n item g).map (rank item g)).Pairwise (· < ·) := by
  rw [List.pairwise_map]
  refine (chosen_sorted n item g).imp_of_mem ?_
  intro a b ha _ hab
  apply rank_mono item g a b hab
  simp only [chosen, List.mem_filter, beq_iff_eq] at ha
  rw [ha.2]; rfl

/-! ### Set operations -/

theorem mem_setUnion (a b : List Nat) : ∀ x, x ∈ setUnion a b ↔ x ∈ a ∨ x ∈ b := by
  induction a, b using setUnion.induct with
  | case1 ys => intro z; simp [setUnion]
  | case2 x xs => intro z; simp [setUnion]
  | case3 x xs y ys h ih => intro z; rw [setUnion, if_pos h, List.mem_cons, ih]; simp only [List.mem_cons]; tauto
  | case4 x xs y ys h h' ih => intro z; rw [setUnion, if_neg h, if_pos h', List.mem_cons, ih]; simp only [List.mem_cons]; tauto
  | case5 x xs y ys h h' ih =>
    obtain rfl : x = y := by omega
    intro z; rw [setUnion, if_neg h, if_neg h', List.mem_cons, ih]; simp only [List.mem_cons]; tauto

theorem setUnion_sorted (a b : List Nat) (ha : a.Pairwise (· < ·)) (hb : b.Pairwise (· < ·)) :
    (setUnion a b).Pairwise (· < ·) := by
  induction a, b using setUnion.induct with
  | case1 ys => simpa [setUnion] using hb
  | case2 x xs => simpa [setUnion] using ha
  | case3 x xs y ys h ih =>
    rw [setUnion, if_pos h]
    rw [List.pairwise_cons] at ha
    refine List.pairwise_cons.mpr ⟨fun z hz => ?_, ih ha.2 hb⟩
    rcases (mem_setUnion _ _ z).mp hz with h1 | h1
    · exact ha.1 z h1
    · rw [List.pairwise_cons] at hb
      rcases List.mem_cons.mp h1 with rfl | h2
      · exact h
      · have := hb.1 z h2; omega
  | case4 x xs y ys h h' ih =>
    rw [setUnion, if_neg h, if_pos h']
    have hb' := List.pairwise_cons.mp hb
    refine List.pairwise_cons.mpr ⟨fun z hz => ?_, ih ha hb'.2⟩
    rcases (mem_setUnion _ _ z).mp hz with h1 | h1
    · rw [List.pairwise_cons] at ha
      rcases List.mem_cons.mp h1 with rfl | h2
      · exact h'
      · have := ha.1 z h2; omega
    · exact hb'.1 z h1
  | case5 x xs y ys h h' ih =>
    obtain rfl : x = y := by omega
    rw [setUnion, if_neg h, if_neg h']
    rw [List.pairwise_cons] at ha hb
    refine List.pairwise_cons.mpr ⟨fun z hz => ?_, ih ha.2 hb.2⟩
    rcases (mem_setUnion _ _ z).mp hz with h1 | h1
    · exact ha.1 z h1
    · exact hb.1 z h1

theorem mem_setInter (a b : List Nat) (ha : a.Pairwise (· < ·)) (hb : b.Pairwise (· < ·)) :
    ∀ x, x ∈ setInter a b ↔ x ∈ a ∧ x ∈ b := by
  induction a, b using setInter.induct with
  | case1 ys => intro z; simp [setInter]
  | case2 x xs => intro z; simp [setInter]
  | case3 x xs y ys h ih =>
    have ha' := List.pairwise_cons.mp ha
    have hb' := List.pairwise_cons.mp hb
    intro z; rw [setInter, if_pos h, ih ha'.2 hb]
    simp only [List.mem_cons]
    constructor
    · rintro ⟨h1, h2⟩; exact ⟨Or.inr h1, h2⟩
    · rintro ⟨h1 | h1, h2⟩
      · subst h1; rcases h2 with h2 | h2
        · omega
        · have := hb'.1 z h2; omega
      · exact ⟨h1, h2⟩
  | case4 x xs y ys h h' ih =>
    have ha' := List.pairwise_cons.mp ha
    have hb' := List.pairwise_cons.mp hb
    intro z; rw [setInter, if_neg h, if_pos h', ih ha hb'.2]
    simp only [List.mem_cons]
    constructor
    · rintro ⟨h1, h2⟩; exact ⟨h1, Or.inr h2⟩
    · rintro ⟨h1, h2 | h2⟩
      · subst h2; rcases h1 with h1 | h1
        · omega
        · have := ha'.1 z h1; omega
      · exact ⟨h1, h2⟩
  | case5 x xs y ys h h' ih =>
    obtain rfl : x = y := by omega
    have ha' := List.pairwise_cons.mp ha
    have hb' := List.pairwise_cons.mp hb
    intro z; rw [setInter, if_neg h, if_neg h', List.mem_cons, ih ha'.2 hb'.2]
    simp only [List.mem_cons]
    constructor
    · rintro (h1 | ⟨h1, h2⟩)
      · exact ⟨Or.inl h1, Or.inl h1⟩
      · exact ⟨Or.inr h1, Or.inr h2⟩
    · rintro ⟨h1 | h1, h2 | h2⟩
      · exact Or.inl h1
      · exact Or.inl h1
      · exact Or.inl h2
      · exact Or.inr ⟨h1, h2⟩

theorem setInter_sub (a b : List Nat) : (setInter a b).Sublist a := by
  induction a, b using setInter.induct with
  | case1 ys => simp [setInter]
  | case2 x xs => simp [setInter]
  | case3 x xs y ys h ih => rw [setInter, if_pos h]; exact ih.cons x
  | case4 x xs y ys h h' ih => rw [setInter, if_neg h, if_pos h']; exact ih
  | case5 x xs y ys h h' ih => rw [setInter, if_neg h, if_neg h']; exact ih.cons_cons x

theorem mem_setDiff (a b : List Nat) (ha : a.Pairwise (· < ·)) (hb : b.Pairwise (· < ·)) :
    ∀ x, x ∈ setDiff a b ↔ x ∈ a ∧ x ∉ b := by
  induction a, b using setDiff.induct with
  | case1 ys => intro z; simp [setDiff]
  | case2 x xs => intro z; simp [setDiff]
  | case3 x xs y ys h ih =>
    have ha' := List.pairwise_cons.mp ha
    have hb' := List.pairwise_cons.mp hb
    intro z; rw [setDiff, if_pos h, List.mem_cons, ih ha'.2 hb]
    simp only [List.mem_cons, not_or]
    constructor
    · rintro (h1 | ⟨h1, h2, h3⟩)
      · subst h1; exact ⟨Or.inl rfl, by omega, fun h2 => by have := hb'.1 z h2; omega⟩
      · exact ⟨Or.inr h1, h2, h3⟩
    · rintro ⟨h1 | h1, h2, h3⟩
      · exact Or.inl h1
      · exact Or.inr ⟨h1, h2, h3⟩
  | case4 x xs y ys h h' ih =>
    have ha' := List.pairwise_cons.mp ha
    have hb' := List.pairwise_cons.mp hb
    intro z; rw [setDiff, if_neg h, if_pos h', ih ha hb'.2]
    simp only [List.mem_cons, not_or]
    constructor
    · rintro ⟨h1 | h1, h2⟩
      · exact ⟨Or.inl h1, by omega, h2⟩
      · exact ⟨Or.inr h1, by have := ha'.1 z h1; omega, h2⟩
    · rintro ⟨h1, h2, h3⟩; exact ⟨h1, h3⟩
  | case5 x xs y ys h h' ih =>
    obtain rfl : x = y := by omega
    have ha' := List.pairwise_cons.mp ha
    have hb' := List.pairwise_cons.mp hb
    intro z; rw [setDiff, if_neg h, if_neg h', ih ha'.2 hb'.2]
    simp only [List.mem_cons, not_or]
    constructor
    · rintro ⟨h1, h2⟩; exact ⟨Or.inr h1, by have := ha'.1 z h1; omega, h2⟩
    · rintro ⟨h1 | h1, h2, h3⟩
      · exact absurd h1 h2
      · exact ⟨h1, h3⟩

theorem setDiff_sub (a b : List Nat) : (setDiff a b).Sublist a := by
  induction a, b using setDiff.induct with
  | case1 ys => simp [setDiff]
  | case2 x xs => simp [setDiff]
  | case3 x xs y ys h ih => rw [setDiff, if_pos h]; exact ih.cons_cons x
  | case4 x xs y ys h h' ih => rw [setDiff, if_neg h, if_pos h']; exact ih
  | case5 x xs y ys h h' ih => rw [setDiff, if_neg h, if_neg h']; exact ih.cons x

/-! ### Sorted insertion -/

theorem mem_insertSorted (x : Nat) (l : List Nat) : ∀ z, z ∈ insertSorted x l ↔ z = x ∨ z ∈ l := by
  induction l with
  | nil => intro z; simp [insertSorted]
  | cons y ys ih =>
    intro z
    unfold insertSorted
    split
    · simp
    · split
      · rename_i h; subst h; simp
      · simp only [List.mem_cons, ih]; tauto

theorem insertSorted_sorted (x : Nat) (l : List Nat) (hl : l.Pairwise (· < ·)) : (insertSorted x l).Pairwise (· < ·) := by
  induction l with
  | nil => simp [insertSorted]
  | cons y ys ih =>
    have h' := List.pairwise_cons.mp hl
    unfold insertSorted
    split
    · rename_i h
      refine List.pairwise_cons.mpr ⟨fun z hz => ?_, hl⟩
      rcases List.mem_cons.mp hz with rfl | h1
      · exact h
      · have := h'.1 z h1; omega
    · split
      · exact hl
      · refine List.pairwise_cons.mpr ⟨fun z hz => ?_, ih h'.2⟩
        rcases (mem_insertSorted x ys z).mp hz with rfl | h1
        · omega
        · exact h'.1 z h1

theorem insertAll_spec (ds acc : List Nat) (hacc : acc.Pairwise (· < ·)) :
    (ds.foldl (fun acc d => insertSorted d acc) acc).Pairwise (· < ·) ∧
      ∀ z, z ∈ ds.foldl (fun acc d => insertSorted d acc) acc ↔ z ∈ ds ∨ z ∈ acc := by
  induction ds generalizing acc with
  | nil => simp [hacc]
  | cons d ds ih =>
    have := ih (insertSorted d acc) (insertSorted_sorted d acc hacc)
    refine ⟨this.1, fun z => ?_⟩
    rw [List.foldl_cons, this.2, mem_insertSorted]
    simp only [List.mem_cons]; tauto

theorem dofFold_spec (getDofs : Nat → List Nat) (ids acc : List Nat) (hacc : acc.Pairwise (· < ·)) :
    (ids.foldl (fun acc i => (getDofs i).foldl (fun acc d => insertSorted d acc) acc) acc).Pairwise (· < ·) ∧
      ∀ z, z ∈ ids.foldl (fun acc i => (getDofs i).foldl (fun acc d => insertSorted d acc) acc) acc ↔
        (∃ i ∈ ids, z ∈ getDofs i) ∨ z ∈ acc := by
  induction ids generalizing acc with
  | nil => simp [hacc]
  | cons i ids ih =>
    have h1 := insertAll_spec (getDofs i) acc hacc
    have := ih _ h1.1
    refine ⟨this.1, fun z => ?_⟩
    rw [List.foldl_cons, this.2, h1.2]
    simp only [List.mem_cons, exists_eq_or_imp]; rw [or_left_comm, or_assoc]

end Serac.Dom
