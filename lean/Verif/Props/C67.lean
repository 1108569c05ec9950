import Verif.Model.Prescribed
import Verif.Props.C25
import Mathlib.Data.List.Nodup
import Mathlib.Tactic.Linarith
import Mathlib.Tactic.Ring
import Mathlib.Tactic.FinCases
import Mathlib.Data.Fin.VecNotation
import Mathlib.Tactic.NormNum
/-!
# C67: prescribed displacements take the user's values at exactly the chosen nodes

Spec.  `Owned s i`: the rank owns node `i`.  `s.T i d`: the true dof of component `d` of an owned node.  A call that prescribes the function
`f` on the nodes chosen by a predicate, an attribute list or a dof list must leave every owned dof with `f (position, time)` if chosen and
with its old value if not.
-/

namespace Serac.C67
open Serac.Prescribed Serac.Prescribed.Rank

/-! ## Spec -/

/-- What mfem guarantees about the numbering of a rank: all components of a node have the same owner, and the owned local dofs are numbered
one to one by the true dofs. -/
structure Ok (s : Rank) : Prop where
  dim_pos : 0 < s.dim
  same : ∀ i < s.n, ∀ d < s.dim, (0 ≤ s.ltdof (s.vdof i d) ↔ 0 ≤ s.ltdof (s.vdof i 0))
  inj : ∀ l < s.n * s.dim, ∀ l' < s.n * s.dim, 0 ≤ s.ltdof l → s.ltdof l = s.ltdof l' → l = l'
  range : ∀ l < s.n * s.dim, s.ltdof l < s.trueSize
  onto : ∀ t < s.trueSize, ∃ l < s.n * s.dim, s.ltdof l = (t : ℤ)

/-- The rank owns the node. -/
def Owned (s : Rank) (i : ℕ) : Prop := i < s.n ∧ 0 ≤ s.ltdof (s.vdof i 0)

/-- True dof of a component of an owned node. -/
def T (s : Rank) (i d : ℕ) : ℕ := (s.ltdof (s.vdof i d)).toNat

/-- Position of node `i`: `GetNodes` fills the grid function `X` in the ordering of the space, component after component or node after node. -/
def pos (s : Rank) (i : ℕ) : Fin s.dim → ℝ := fun d => match s.ord with
  | .byNodes => s.X (i + s.n * d)
  | .byVDim => s.X (d + s.dim * i)

/-! ## Numbering -/

theorem pos_eq (s : Rank) (i : ℕ) : pos s i = s.coords i := by
  funext d
  unfold pos coords vdof
  cases s.ord <;> rfl

theorem map_lt (o : VOrder) {n dim i d : ℕ} (hi : i < n) (hd : d < dim) : o.map n dim i d < n * dim := by
  cases o
  · calc i + n * d < n + n * d := by omega
      _ = n * (d + 1) := by ring
      _ ≤ n * dim := Nat.mul_le_mul_left _ hd
  · calc d + dim * i < dim + dim * i := by omega
      _ = dim * (i + 1) := by ring
      _ ≤ dim * n := Nat.mul_le_mul_left _ hi
      _ = n * dim := Nat.mul_comm _ _

theorem node_map (o : VOrder) {n dim i d : ℕ} (hi : i < n) (hd : d < dim) : o.node n dim (o.map n dim i d) = i := by
  cases o
  · show (i + n * d) % n = i
    rw [Nat.add_mul_mod_self_left, Nat.mod_eq_of_lt hi]
  · show (d + dim * i) / dim = i
    rw [Nat.add_mul_div_left _ _ (by omega), Nat.div_eq_of_lt hd, zero_add]

theorem comp_map (o : VOrder) {n dim i d : ℕ} (hi : i < n) (hd : d < dim) : o.comp n dim (o.map n dim i d) = d := by
  cases o
  · show (i + n * d) / n = d
    rw [Nat.add_mul_div_left _ _ (by omega), Nat.div_eq_of_lt hi, zero_add]
  · show (d + dim * i) % dim = d
    rw [Nat.add_mul_mod_self_left, Nat.mod_eq_of_lt hd]

/-- **The numbering**: a local dof is the place of a component of a node in the ordering of the space; the code's `VDofToDof` inverts it. -/
theorem C67_numbering (s : Rank) (i d : ℕ) (hi : i < s.n) (hd : d < s.dim) :
    (s.ord = .byNodes → s.vdof i d = i + s.n * d) ∧ (s.ord = .byVDim → s.vdof i d = d + s.dim * i) ∧ s.vdof i d < s.n * s.dim ∧
      ∀ j < s.n, ∀ e < s.dim, s.vdof i d = s.vdof j e → i = j ∧ d = e := by
  refine ⟨fun h => by rw [vdof, h]; rfl, fun h => by rw [vdof, h]; rfl, map_lt s.ord hi hd, fun j hj e he h => ?_⟩
  exact ⟨by rw [← node_map s.ord hi hd, ← node_map s.ord hj he]; exact congrArg _ h, by rw [← comp_map s.ord hi hd, ← comp_map s.ord hj he]; exact congrArg _ h⟩

theorem map_node (o : VOrder) {n dim l : ℕ} (hl : l < n * dim) :
    o.node n dim l < n ∧ o.comp n dim l < dim ∧ o.map n dim (o.node n dim l) (o.comp n dim l) = l := by
  have hn : 0 < n := Nat.pos_of_ne_zero (by rintro rfl; simp at hl)
  have hd : 0 < dim := Nat.pos_of_ne_zero (by rintro rfl; simp at hl)
  cases o
  · refine ⟨Nat.mod_lt _ hn, ?_, Nat.mod_add_div _ _⟩
    exact Nat.div_lt_of_lt_mul hl
  · refine ⟨?_, Nat.mod_lt _ hd, Nat.mod_add_div _ _⟩
    exact Nat.div_lt_of_lt_mul (by rwa [Nat.mul_comm])

theorem vdof_lt (s : Rank) {i d : ℕ} (hi : i < s.n) (hd : d < s.dim) : s.vdof i d < s.n * s.dim := map_lt _ hi hd

theorem vdof_inj (s : Rank) {i d i' d' : ℕ} (hi : i < s.n) (hd : d < s.dim) (hi' : i' < s.n) (hd' : d' < s.dim)
    (h : s.vdof i d = s.vdof i' d') : i = i' ∧ d = d' := by
  have h1 := node_map s.ord hi hd
  have h2 := comp_map s.ord hi hd
  unfold vdof at h
  rw [h] at h1 h2
  rw [node_map s.ord hi' hd'] at h1
  rw [comp_map s.ord hi' hd'] at h2
  exact ⟨h1.symm, h2.symm⟩

theorem owned_nonneg {s : Rank} (ok : Ok s) {i d : ℕ} (hi : Owned s i) (hd : d < s.dim) : 0 ≤ s.ltdof (s.vdof i d) :=
  (ok.same i hi.1 d hd).2 hi.2

theorem T_cast {s : Rank} (ok : Ok s) {i d : ℕ} (hi : Owned s i) (hd : d < s.dim) : ((T s i d : ℕ) : ℤ) = s.ltdof (s.vdof i d) :=
  Int.toNat_of_nonneg (owned_nonneg ok hi hd)

theorem T_lt {s : Rank} (ok : Ok s) {i d : ℕ} (hi : Owned s i) (hd : d < s.dim) : T s i d < s.trueSize := by
  have := ok.range _ (vdof_lt s hi.1 hd)
  rw [← T_cast ok hi hd] at this
  exact_mod_cast this

theorem T_inj {s : Rank} (ok : Ok s) {i d i' d' : ℕ} (hi : Owned s i) (hd : d < s.dim) (hi' : Owned s i') (hd' : d' < s.dim)
    (h : T s i d = T s i' d') : i = i' ∧ d = d' := by
  apply vdof_inj s hi.1 hd hi'.1 hd'
  apply ok.inj _ (vdof_lt s hi.1 hd) _ (vdof_lt s hi'.1 hd') (owned_nonneg ok hi hd)
  rw [← T_cast ok hi hd, ← T_cast ok hi' hd', h]

/-- Every true dof is the dof of exactly one component of one owned node. -/
theorem T_onto {s : Rank} (ok : Ok s) {t : ℕ} (ht : t < s.trueSize) : ∃ i d, Owned s i ∧ d < s.dim ∧ T s i d = t := by
  obtain ⟨l, hl, hlt⟩ := ok.onto t ht
  obtain ⟨h1, h2, h3⟩ := map_node s.ord hl
  have hv : s.vdof (s.ord.node s.n s.dim l) (s.ord.comp s.n s.dim l) = l := h3
  refine ⟨_, _, ⟨h1, (ok.same _ h1 _ h2).1 ?_⟩, h2, ?_⟩
  · rw [hv, hlt]; positivity
  · unfold T; rw [hv, hlt]; simp

theorem localOf_T {s : Rank} (ok : Ok s) {i d : ℕ} (hi : Owned s i) (hd : d < s.dim) : s.localOf (T s i d) = some (s.vdof i d) := by
  have hmem : s.vdof i d ∈ List.range (s.n * s.dim) := List.mem_range.2 (vdof_lt s hi.1 hd)
  unfold localOf
  cases hf : (List.range (s.n * s.dim)).find? (fun l => decide (s.ltdof l = ((T s i d : ℕ) : ℤ))) with
  | none =>
    have := List.find?_eq_none.1 hf _ hmem
    simp [T_cast ok hi hd] at this
  | some l =>
    have h1 := List.find?_some hf
    have h2 := List.mem_range.1 (List.mem_of_find?_eq_some hf)
    simp only [decide_eq_true_eq, T_cast ok hi hd] at h1
    rw [ok.inj _ h2 _ (vdof_lt s hi.1 hd) (h1 ▸ owned_nonneg ok hi hd) h1]

theorem mem_localOfTrue {s : Rank} (ts : List ℕ) (l : ℕ) :
    l ∈ s.localOfTrue ts ↔ l < s.n * s.dim ∧ ∃ t ∈ ts, s.ltdof l = ((t : ℕ) : ℤ) := by
  unfold localOfTrue
  simp

/-! ## Loops -/

theorem foldl_put (ts : List ℕ) (w v : ℕ → ℝ) (j : ℕ) :
    ts.foldl (fun v i => put v i (w i)) v j = if j ∈ ts then w j else v j := by
  induction ts generalizing v with
  | nil => simp
  | cons t ts ih =>
    rw [List.foldl_cons, ih]
    unfold put
    by_cases h : j = t
    · subst h; simp
    · simp [h]

theorem project_node (s : Rank) (f : Fin s.dim → ℝ) {i : ℕ} (hi : i < s.n) (ds : List (Fin s.dim)) (g : ℕ → ℝ) {j : ℕ} (hj : j < s.n)
    (d : Fin s.dim) : ds.foldl (fun g (d : Fin s.dim) => put g (s.vdof i d) (f d)) g (s.vdof j d) =
      if j = i ∧ d ∈ ds then f d else g (s.vdof j d) := by
  induction ds generalizing g with
  | nil => simp
  | cons e ds ih =>
    rw [List.foldl_cons, ih]
    unfold put
    by_cases h : s.vdof j d = s.vdof i e
    · obtain ⟨h1, h2⟩ := vdof_inj s hj d.2 hi e.2 h
      have h2 : d = e := Fin.ext h2
      subst h1; subst h2; simp
    · have : ¬ (j = i ∧ d = e) := by rintro ⟨rfl, rfl⟩; exact h rfl
      rw [if_neg h]
      by_cases hji : j = i
      · have hde : d ≠ e := fun he => this ⟨hji, he⟩
        simp [hji, hde]
      · simp [hji]

theorem projectVector_at (s : Rank) (f : (Fin s.dim → ℝ) → (Fin s.dim → ℝ)) (nodes : List ℕ) (hn : ∀ i ∈ nodes, i < s.n) (g : ℕ → ℝ)
    {j : ℕ} (hj : j < s.n) (d : Fin s.dim) :
    s.projectVector f nodes g (s.vdof j d) = if j ∈ nodes then f (s.coords j) d else g (s.vdof j d) := by
  unfold projectVector
  induction nodes generalizing g with
  | nil => simp
  | cons i nodes ih =>
    rw [List.foldl_cons, ih (fun k hk => hn k (List.mem_cons_of_mem _ hk)),
      project_node s (f (s.coords i)) (hn i List.mem_cons_self) _ _ hj]
    by_cases h : j = i
    · subst h; simp
    · simp [h]

theorem projectScalar_at (s : Rank) (f : (Fin s.dim → ℝ) → ℝ) (nodes : List ℕ) (hn : ∀ i ∈ nodes, i < s.n) {c : ℕ} (hc : c < s.dim)
    (g : ℕ → ℝ) {j : ℕ} (hj : j < s.n) : s.projectScalar f nodes c g (s.vdof j c) = if j ∈ nodes then f (s.coords j) else g (s.vdof j c) := by
  unfold projectScalar
  induction nodes generalizing g with
  | nil => simp
  | cons i nodes ih =>
    rw [List.foldl_cons, ih (fun k hk => hn k (List.mem_cons_of_mem _ hk))]
    unfold put
    by_cases h : j = i
    · subst h; simp
    · have : s.vdof j c ≠ s.vdof i c := fun he => h (vdof_inj s hj hc (hn i List.mem_cons_self) hc he).1
      simp [h, this]

theorem foldl_append_if {α β : Type} (l : List α) (p : α → Bool) (g : α → List β) (acc : List β) :
    l.foldl (fun acc a => if p a then acc ++ g a else acc) acc = acc ++ (l.filter p).flatMap g := by
  induction l generalizing acc with
  | nil => simp
  | cons a l ih =>
    rw [List.foldl_cons, ih]
    by_cases h : p a <;> simp [h]

/-- The active components of a call. -/
def Active (component : Option ℤ) (d : ℕ) : Prop := ∀ c, component = some c → c = (d : ℤ)

theorem nodeDofs_eq (s : Rank) (component : Option ℤ) (i : ℕ) : s.nodeDofs component i =
    ((List.range s.dim).filter fun (d : ℕ) => isActive component d).map
      fun d => s.ltdof (s.vdof i d) := by
  unfold nodeDofs
  rw [foldl_append_if (List.range s.dim) (fun (d : ℕ) => isActive component d)
    (fun d => [s.ltdof (s.vdof i d)])]
  rw [List.nil_append, List.map_eq_flatMap]

theorem constrained_eq (s : Rank) (pred : (Fin s.dim → ℝ) → Bool) (component : Option ℤ) : s.constrained pred component =
    ((List.range s.n).filter fun i => decide (0 ≤ s.ltdof (s.vdof i 0)) && pred (s.coords i)).flatMap (s.nodeDofs component) := by
  unfold constrained
  rw [← List.nil_append (List.flatMap _ _), ← foldl_append_if]
  congr 1
  funext acc i
  by_cases h : 0 ≤ s.ltdof (s.vdof i 0) <;> simp [h]

theorem mem_nodeDofs (s : Rank) (component : Option ℤ) (i : ℕ) (t : ℤ) :
    t ∈ s.nodeDofs component i ↔ ∃ d < s.dim, Active component d ∧ t = s.ltdof (s.vdof i d) := by
  rw [nodeDofs_eq]
  simp only [List.mem_map, List.mem_filter, List.mem_range, Active]
  constructor
  · rintro ⟨d, ⟨hd, ha⟩, rfl⟩
    refine ⟨d, hd, fun c hc => ?_, rfl⟩
    subst hc
    simpa [isActive] using ha
  · rintro ⟨d, hd, ha, rfl⟩
    refine ⟨d, ⟨hd, ?_⟩, rfl⟩
    cases component with
    | none => rfl
    | some c => simpa [isActive] using ha c rfl

theorem mem_constrained (s : Rank) (pred : (Fin s.dim → ℝ) → Bool) (component : Option ℤ) (t : ℤ) : t ∈ s.constrained pred component ↔
    ∃ i d, Owned s i ∧ d < s.dim ∧ pred (s.coords i) = true ∧ Active component d ∧ t = s.ltdof (s.vdof i d) := by
  rw [constrained_eq]
  simp only [List.mem_flatMap, List.mem_filter, List.mem_range, Bool.and_eq_true, decide_eq_true_eq, mem_nodeDofs, Owned]
  constructor
  · rintro ⟨i, ⟨h1, h2, h3⟩, d, h4, h5, h6⟩
    exact ⟨i, d, ⟨h1, h2⟩, h4, h3, h5, h6⟩
  · rintro ⟨i, d, ⟨h1, h2⟩, h4, h3, h5, h6⟩
    exact ⟨i, ⟨h1, h2, h3⟩, d, h4, h5, h6⟩

/-- As unsigned numbers, for an owned dof. -/
theorem T_mem_constrained {s : Rank} (ok : Ok s) (pred : (Fin s.dim → ℝ) → Bool) (component : Option ℤ) {i d : ℕ} (hi : Owned s i)
    (hd : d < s.dim) : T s i d ∈ (s.constrained pred component).map Int.toNat ↔ pred (s.coords i) = true ∧ Active component d := by
  rw [List.mem_map]
  constructor
  · rintro ⟨t, ht, he⟩
    obtain ⟨j, e, hj, hej, hp, ha, rfl⟩ := (mem_constrained s pred component t).1 ht
    obtain ⟨rfl, rfl⟩ := T_inj ok hj hej hi hd he
    exact ⟨hp, ha⟩
  · rintro ⟨hp, ha⟩
    exact ⟨_, (mem_constrained s pred component _).2 ⟨i, d, hi, hd, hp, ha, rfl⟩, rfl⟩

/-! ## Theorems -/

/-- **The chosen dofs**: `calculateConstrainedDofs` returns exactly the true dofs of the active components of the owned nodes that satisfy
the predicate, each once, all inside the true vector. -/
theorem C67_chosen (s : Rank) (ok : Ok s) (pred : (Fin s.dim → ℝ) → Bool) (component : Option ℤ) :
    (∀ i d, Owned s i → d < s.dim →
      (s.ltdof (s.vdof i d) ∈ s.constrained pred component ↔ pred (pos s i) = true ∧ Active component d)) ∧
    (∀ t ∈ s.constrained pred component, 0 ≤ t ∧ t < s.trueSize) ∧ (s.constrained pred component).Nodup := by
  simp only [pos_eq]
  refine ⟨fun i d hi hd => ?_, fun t ht => ?_, ?_⟩
  · rw [mem_constrained]
    constructor
    · rintro ⟨j, e, hj, hej, hp, ha, he⟩
      obtain ⟨rfl, rfl⟩ := T_inj ok hi hd hj hej (congrArg Int.toNat he)
      exact ⟨hp, ha⟩
    · rintro ⟨hp, ha⟩
      exact ⟨i, d, hi, hd, hp, ha, rfl⟩
  · obtain ⟨i, d, hi, hd, -, -, rfl⟩ := (mem_constrained s pred component t).1 ht
    exact ⟨owned_nonneg ok hi hd, ok.range _ (vdof_lt s hi.1 hd)⟩
  · rw [constrained_eq, List.nodup_flatMap]
    refine ⟨fun i hi => ?_, ?_⟩
    · simp only [List.mem_filter, List.mem_range, Bool.and_eq_true, decide_eq_true_eq] at hi
      rw [nodeDofs_eq]
      refine List.Nodup.map_on ?_ (List.nodup_range.filter _)
      intro d hd e he h
      have hd' := List.mem_range.1 (List.mem_filter.1 hd).1
      have he' := List.mem_range.1 (List.mem_filter.1 he).1
      have ow : Owned s i := ⟨hi.1, hi.2.1⟩
      exact (T_inj ok ow hd' ow he' (congrArg Int.toNat h)).2
    · refine List.Pairwise.imp_of_mem ?_ (List.nodup_range.filter _)
      intro i j hi hj hij
      simp only [List.mem_filter, List.mem_range, Bool.and_eq_true, decide_eq_true_eq] at hi hj
      intro t ht ht'
      obtain ⟨d, hd, -, rfl⟩ := (mem_nodeDofs s component i t).1 ht
      obtain ⟨e, he, -, h⟩ := (mem_nodeDofs s component j _).1 ht'
      exact hij (T_inj ok ⟨hi.1, hi.2.1⟩ hd ⟨hj.1, hj.2.1⟩ he (congrArg Int.toNat h)).1

/-- A true dof handed to a dof list marks its own node. -/
theorem node_of_list {s : Rank} (ok : Ok s) (ts : List ℕ) {i d : ℕ} (hi : Owned s i) (hd : d < s.dim) (h : T s i d ∈ ts) :
    i ∈ (s.localOfTrue ts).map (s.ord.node s.n s.dim) :=
  List.mem_map.2 ⟨s.vdof i d, mem_localOfTrue ts _ |>.2 ⟨vdof_lt s hi.1 hd, _, h, (T_cast ok hi hd).symm⟩, node_map s.ord hi.1 hd⟩

/-- **Dof lists**: the listed dofs get the value of the function at their own node and component, every other dof keeps its value.  The
other components of the listed nodes are not touched. -/
theorem C67_list (s : Rank) (ok : Ok s) (ts : List ℕ) (f : (Fin s.dim → ℝ) → ℝ → (Fin s.dim → ℝ)) (time : ℝ) (v : ℕ → ℝ) :
    ∃ w, s.setDofs (s.byDofList ts f) time s.trueSize v = some w ∧ ∀ i, Owned s i → ∀ d : Fin s.dim,
      w (T s i d) = if T s i d ∈ ts then f (pos s i) time d else v (T s i d) := by
  simp only [pos_eq]
  refine ⟨_, by rw [setDofs, if_neg (not_not.2 rfl)], fun i hi d => ?_⟩
  rw [foldl_put]
  show (if T s i d ∈ ts then _ else _) = _
  by_cases h : T s i d ∈ ts
  · rw [if_pos h, if_pos h]
    show s.toTrue _ _ = _
    unfold toTrue
    rw [localOf_T ok hi d.2]
    show s.projectVector _ ((s.localOfTrue ts).map _) _ _ = _
    rw [projectVector_at s _ _ _ _ hi.1, if_pos (node_of_list ok ts hi d.2 h)]
    intro k hk
    obtain ⟨l, hl, rfl⟩ := List.mem_map.1 hk
    exact (map_node s.ord ((mem_localOfTrue ts l).1 hl).1).1
  · rw [if_neg h, if_neg h]

/-- **Predicate**: after the call every component of an owned node has the prescribed value if the node satisfies the predicate, and its old
value otherwise. -/
theorem C67_predicate (s : Rank) (ok : Ok s) (pred : (Fin s.dim → ℝ) → Bool) (f : (Fin s.dim → ℝ) → ℝ → (Fin s.dim → ℝ)) (time : ℝ)
    (v : ℕ → ℝ) : ∃ w, s.setDofs (s.byPredicate pred f) time s.trueSize v = some w ∧ ∀ i, Owned s i → ∀ d : Fin s.dim,
      w (T s i d) = if pred (pos s i) then f (pos s i) time d else v (T s i d) := by
  simp only [pos_eq]
  have HL := C67_list s ok ((s.constrained pred none).map Int.toNat) f time v
  simp only [pos_eq] at HL
  obtain ⟨w, h, hw⟩ := HL
  refine ⟨w, h, fun i hi d => ?_⟩
  rw [hw i hi d]
  refine if_congr ?_ rfl rfl
  rw [T_mem_constrained ok pred none hi d.2]
  simp [Active]

/-- **Predicate and component**: only that component of the chosen nodes is set, to the value of the scalar function. -/
theorem C67_component (s : Rank) (ok : Ok s) (pred : (Fin s.dim → ℝ) → Bool) (f : (Fin s.dim → ℝ) → ℝ → ℝ) (c : ℤ) (time : ℝ)
    (v : ℕ → ℝ) : ∃ w, s.setDofs (s.byPredicateComponent pred f c) time s.trueSize v = some w ∧ ∀ i, Owned s i → ∀ d : Fin s.dim,
      w (T s i d) = if pred (pos s i) ∧ c = (d : ℕ) then f (pos s i) time else v (T s i d) := by
  simp only [pos_eq]
  have HL := C67_list s ok ((s.constrained pred (some c)).map Int.toNat) (s.componentFunction c f) time v
  simp only [pos_eq] at HL
  obtain ⟨w, h, hw⟩ := HL
  refine ⟨w, h, fun i hi d => ?_⟩
  rw [hw i hi d]
  have hiff : T s i d ∈ (s.constrained pred (some c)).map Int.toNat ↔ pred (s.coords i) = true ∧ c = ((d : ℕ) : ℤ) := by
    rw [T_mem_constrained ok pred (some c) hi d.2]
    simp [Active]
  by_cases hm : pred (s.coords i) = true ∧ c = ((d : ℕ) : ℤ)
  · rw [if_pos (hiff.2 hm), if_pos hm]
    simp [componentFunction, hm.2]
  · rw [if_neg (fun h => hm (hiff.1 h)), if_neg hm]

/-- A component the displacement does not have chooses nothing: the call is accepted and constrains no dof. -/
theorem C67_no_component (s : Rank) (pred : (Fin s.dim → ℝ) → Bool) (c : ℤ) (hc : c < 0 ∨ (s.dim : ℤ) ≤ c) :
    s.constrained pred (some c) = [] := by
  rw [List.eq_nil_iff_forall_not_mem]
  intro t ht
  obtain ⟨i, d, -, hd, -, ha, -⟩ := (mem_constrained s pred (some c) t).1 ht
  have := ha c rfl
  omega

/-- The attributes of a call mark a node. -/
def OnAttrs (s : Rank) (attrs : List ℤ) (i : ℕ) : Prop := ∃ a : ℕ, (a : ℤ) ∈ attrs ∧ s.onBdr a i = true

theorem mem_attrs {s : Rank} (ok : Ok s) (attrs : List ℤ) (component : Option ℕ) (b : BC.Cond)
    (h : BC.Cond.ofAttrs s.space attrs component = some b) {i d : ℕ} (hi : Owned s i) (hd : d < s.dim) :
    T s i d ∈ b.trueDofs ↔ OnAttrs s attrs i ∧ ∀ c, component = some c → d = c := by
  rw [(C25.mem_ofAttrs s.space attrs component b h _).1]
  unfold C25.OnAttrs
  show T s i d < s.trueSize ∧ (∃ a : ℕ, (a : ℤ) ∈ attrs ∧ (match s.localOf (T s i d) with
    | some l => s.onBdr a (s.ord.node s.n s.dim l) | none => false) = true) ∧
    (∀ c, component = some c → (match s.localOf (T s i d) with | some l => s.ord.comp s.n s.dim l | none => 0) = c) ↔ _
  rw [localOf_T ok hi hd]
  simp only [vdof, node_map s.ord hi.1 hd, comp_map s.ord hi.1 hd, T_lt ok hi hd, true_and]
  exact Iff.rfl

theorem node_of_attrs {s : Rank} (attrs : List ℤ) (component : Option ℕ) (b : BC.Cond)
    (h : BC.Cond.ofAttrs s.space attrs component = some b) {i d : ℕ} (hi : i < s.n) (hd : d < s.dim) (ho : OnAttrs s attrs i)
    (hc : ∀ c, component = some c → d = c) : i ∈ b.localDofs.map (s.ord.node s.n s.dim) := by
  refine List.mem_map.2 ⟨s.vdof i d, (C25.mem_ofAttrs s.space attrs component b h _).2.2 ⟨vdof_lt s hi hd, ?_, ?_⟩, node_map s.ord hi hd⟩
  · obtain ⟨a, ha, hb⟩ := ho
    exact ⟨a, ha, by show s.onBdr a (s.ord.node s.n s.dim (s.ord.map s.n s.dim i d)) = true; rwa [node_map s.ord hi hd]⟩
  · intro c hcc
    show s.ord.comp s.n s.dim (s.ord.map s.n s.dim i d) = c
    rw [comp_map s.ord hi hd, hc c hcc]

theorem nodes_lt {s : Rank} (attrs : List ℤ) (component : Option ℕ) (b : BC.Cond)
    (h : BC.Cond.ofAttrs s.space attrs component = some b) : ∀ k ∈ b.localDofs.map (s.ord.node s.n s.dim), k < s.n := by
  intro k hk
  obtain ⟨l, hl, rfl⟩ := List.mem_map.1 hk
  exact (map_node s.ord ((C25.mem_ofAttrs s.space attrs component b h _).2.1 hl).1).1

/-- **Attributes**: every component of the owned nodes on the attributes is set, the other dofs keep their values. -/
theorem C67_attributes (s : Rank) (ok : Ok s) (attrs : List ℤ) (f : (Fin s.dim → ℝ) → ℝ → (Fin s.dim → ℝ)) (c : Cond s)
    (h : s.byAttributes attrs f = some c) (time : ℝ) (v : ℕ → ℝ) :
    ∃ w, s.setDofs c time s.trueSize v = some w ∧ ∀ i, Owned s i → ∀ d : Fin s.dim,
      (OnAttrs s attrs i → w (T s i d) = f (pos s i) time d) ∧ (¬ OnAttrs s attrs i → w (T s i d) = v (T s i d)) := by
  simp only [pos_eq]
  obtain ⟨b, hb, rfl⟩ := Option.map_eq_some_iff.1 h
  refine ⟨_, by rw [setDofs, if_neg (not_not.2 rfl)], fun i hi d => ?_⟩
  rw [foldl_put]
  have hm := mem_attrs ok attrs none b hb hi d.2
  constructor
  · intro ho
    rw [if_pos (hm.2 ⟨ho, by simp⟩)]
    show s.toTrue _ _ = _
    unfold toTrue
    rw [localOf_T ok hi d.2]
    show s.projectVector _ (b.localDofs.map _) _ _ = _
    rw [projectVector_at s _ _ (nodes_lt attrs none b hb) _ hi.1, if_pos (node_of_attrs attrs none b hb hi.1 d.2 ho (by simp))]
  · intro ho
    rw [if_neg (fun h => ho (hm.1 h).1)]

/-- **Attributes and component**: only that component of the nodes on the attributes is set. -/
theorem C67_attributes_component (s : Rank) (ok : Ok s) (attrs : List ℤ) (f : (Fin s.dim → ℝ) → ℝ → ℝ) (e : ℕ) (he : e < s.dim)
    (c : Cond s) (h : s.byAttributesComponent attrs f e = some c) (time : ℝ) (v : ℕ → ℝ) :
    ∃ w, s.setDofs c time s.trueSize v = some w ∧ ∀ i, Owned s i → ∀ d < s.dim,
      (OnAttrs s attrs i ∧ d = e → w (T s i d) = f (pos s i) time) ∧ (¬ (OnAttrs s attrs i ∧ d = e) → w (T s i d) = v (T s i d)) := by
  simp only [pos_eq]
  obtain ⟨b, hb, rfl⟩ := Option.map_eq_some_iff.1 h
  refine ⟨_, by rw [setDofs, if_neg (not_not.2 rfl)], fun i hi d hd => ?_⟩
  rw [foldl_put]
  have hm := mem_attrs ok attrs (some e) b hb hi hd
  have hbc : b.component = some e := by
    obtain ⟨m, -, rfl⟩ := Option.map_eq_some_iff.1 hb
    rfl
  constructor
  · rintro ⟨ho, rfl⟩
    rw [if_pos (hm.2 ⟨ho, by simp⟩)]
    show s.toTrue _ _ = _
    unfold toTrue
    rw [localOf_T ok hi hd]
    show s.projectScalar _ (b.localDofs.map _) (b.component.getD 0) _ _ = _
    rw [hbc, Option.getD_some, projectScalar_at s _ _ (nodes_lt attrs (some d) b hb) hd _ hi.1,
      if_pos (node_of_attrs attrs (some d) b hb hi.1 hd ho (by simp))]
  · intro ho
    rw [if_neg (fun h => ho ⟨(hm.1 h).1, (hm.1 h).2 e rfl⟩)]

/-- The value a condition gives to one of its dofs does not depend on the vector it is written into. -/
theorem setDofs_mem (s : Rank) (c : Cond s) (time : ℝ) (size : ℕ) (v w : ℕ → ℝ) (h : s.setDofs c time size v = some w) (t : ℕ) :
    w t = if t ∈ c.bc.trueDofs then s.bcState c time t else v t := by
  unfold setDofs at h
  split at h
  · cases h
  · cases h
    exact foldl_put _ _ _ _

/-- **Several conditions**: after all conditions are applied, a dof has the value of the last condition that contains it, whatever was in
the vector before, and dofs in no condition keep their values. -/
theorem C67_last (s : Rank) (cs : List (Cond s)) (time : ℝ) (size : ℕ) (v w : ℕ → ℝ) (h : s.setAll cs time size v = some w) (t : ℕ) :
    (∀ pre c post, cs = pre ++ c :: post → t ∈ c.bc.trueDofs → (∀ c' ∈ post, t ∉ c'.bc.trueDofs) →
      ∀ v' w', s.setDofs c time size v' = some w' → w t = w' t) ∧
    ((∀ c ∈ cs, t ∉ c.bc.trueDofs) → w t = v t) := by
  induction cs generalizing v with
  | nil => cases h; exact ⟨fun pre c post he => by simp at he, fun _ => rfl⟩
  | cons a cs ih =>
    obtain ⟨u, hu, hw⟩ := Option.bind_eq_some_iff.1 h
    obtain ⟨ih1, ih2⟩ := ih u hw
    refine ⟨fun pre c post he hc hp v' w' hw' => ?_, fun hno => ?_⟩
    · cases pre with
      | nil =>
        rw [List.nil_append, List.cons.injEq] at he
        obtain ⟨rfl, rfl⟩ := he
        rw [ih2 hp, setDofs_mem s a time size v u hu, setDofs_mem s a time size v' w' hw', if_pos hc, if_pos hc]
      | cons b pre =>
        rw [List.cons_append, List.cons.injEq] at he
        exact ih1 pre c post he.2 hc hp v' w' hw'
    · rw [ih2 (fun c hc => hno c (List.mem_cons_of_mem _ hc)), setDofs_mem s a time size v u hu, if_neg (hno a List.mem_cons_self)]

/-- Conditions are applied exactly to vectors of the right size. -/
theorem C67_size (s : Rank) (c : Cond s) (time : ℝ) (size : ℕ) (v : ℕ → ℝ) : s.setDofs c time size v = none ↔ size ≠ s.trueSize := by
  unfold setDofs
  split
  · rename_i h; exact ⟨fun _ => h.symm, fun _ => rfl⟩
  · rename_i h; exact ⟨nofun, fun h' => absurd (not_not.1 h).symm h'⟩

/-- **All ranks together**: if every node of the mesh is owned by exactly one rank and the ranks agree on its position, then for every node
and every active component exactly one rank lists exactly one true dof for it if the node satisfies the predicate, and no rank does
otherwise. -/
theorem C67_ranks {R G : Type} (dim : ℕ) (s : R → Rank) (hdim : ∀ r, (s r).dim = dim) (ok : ∀ r, Ok (s r)) (gid : R → ℕ → G)
    (P : G → Fin dim → ℝ) (hpos : ∀ r, ∀ i < (s r).n, ∀ d : Fin (s r).dim, pos (s r) i d = P (gid r i) (Fin.cast (hdim r) d))
    (hown : ∀ g, ∃! p : R × ℕ, Owned (s p.1) p.2 ∧ gid p.1 p.2 = g) (pred : (Fin dim → ℝ) → Bool) (component : Option ℤ) (g : G)
    (d : ℕ) (hd : d < dim) :
    (pred (P g) = true ∧ Active component d →
      ∃! p : R × ℕ, Owned (s p.1) p.2 ∧ gid p.1 p.2 = g ∧ (s p.1).ltdof ((s p.1).vdof p.2 d) ∈
        (s p.1).constrained (fun x => pred (fun e => x (Fin.cast (hdim p.1).symm e))) component) ∧
    (¬ (pred (P g) = true ∧ Active component d) → ∀ r i, Owned (s r) i → gid r i = g →
      (s r).ltdof ((s r).vdof i d) ∉ (s r).constrained (fun x => pred (fun e => x (Fin.cast (hdim r).symm e))) component) := by
  have key : ∀ r i, Owned (s r) i → gid r i = g → ((s r).ltdof ((s r).vdof i d) ∈
      (s r).constrained (fun x => pred (fun e => x (Fin.cast (hdim r).symm e))) component ↔ pred (P g) = true ∧ Active component d) := by
    intro r i hi hg
    rw [(C67_chosen (s r) (ok r) _ component).1 i d hi (by rw [hdim r]; exact hd)]
    have : (fun e => pos (s r) i (Fin.cast (hdim r).symm e)) = P g := by
      funext e
      rw [hpos r i hi.1, hg]
      rfl
    rw [this]
  constructor
  · intro h
    obtain ⟨p, ⟨h1, h2⟩, h3⟩ := hown g
    exact ⟨p, ⟨h1, h2, (key p.1 p.2 h1 h2).2 h⟩, fun q hq => h3 q ⟨hq.1, hq.2.1⟩⟩
  · intro h r i hi hg hm
    exact h ((key r i hi hg).1 hm)

/-! ## Examples -/

/-- Two space dimensions, three nodes on a line, node 1 owned by another rank; node 0 on attribute 1. -/
def demo (o : VOrder) : Rank where
  n := 3
  dim := 2
  ord := o
  trueSize := 4
  ltdof l := if o.node 3 2 l = 0 then o.comp 3 2 l else if o.node 3 2 l = 1 then -1 else 2 + o.comp 3 2 l
  X l := if o.comp 3 2 l = 0 then (o.node 3 2 l : ℝ) else 0
  maxAttr := 2
  onBdr a i := a == 1 && i == 0

theorem demo_ok (o : VOrder) : Ok (demo o) := by
  cases o
  all_goals
    refine ⟨by decide, by decide, by decide, by decide, ?_⟩
    decide

example (o : VOrder) : Owned (demo o) 0 ∧ ¬ Owned (demo o) 1 ∧ Owned (demo o) 2 := by
  cases o <;> (unfold Owned; decide)

/-- Prescribing `(x, time)` where `x ≥ 1`: the owned node 2 gets `(2, 5)`, node 0 keeps its values, node 1 belongs to the other rank. -/
example (v : ℕ → ℝ) : ∃ w, (demo .byVDim).setDofs ((demo .byVDim).byPredicate (fun (x : Fin 2 → ℝ) => decide (1 ≤ x 0))
    (fun (x : Fin 2 → ℝ) t => (![x 0, t] : Fin 2 → ℝ))) 5 4 v = some w ∧ w 2 = 2 ∧ w 3 = 5 ∧ w 0 = v 0 ∧ w 1 = v 1 := by
  obtain ⟨w, h, hw⟩ := C67_predicate (demo .byVDim) (demo_ok .byVDim) (fun (x : Fin 2 → ℝ) => decide (1 ≤ x 0))
    (fun (x : Fin 2 → ℝ) t => (![x 0, t] : Fin 2 → ℝ)) 5 v
  have o0 : Owned (demo .byVDim) 0 := by unfold Owned; decide
  have o2 : Owned (demo .byVDim) 2 := by unfold Owned; decide
  have x0 : pos (demo .byVDim) 0 (0 : Fin 2) = 0 := by
    norm_num [pos, VOrder.comp, VOrder.node, demo]
  have x2 : pos (demo .byVDim) 2 (0 : Fin 2) = 2 := by
    norm_num [pos, VOrder.comp, VOrder.node, demo]
  refine ⟨w, h, ?_, ?_, ?_, ?_⟩
  · have := hw 2 o2 (0 : Fin 2)
    rw [show T (demo .byVDim) 2 ((0 : Fin 2) : ℕ) = 2 by decide] at this
    simpa [x2] using this
  · have := hw 2 o2 (1 : Fin 2)
    rw [show T (demo .byVDim) 2 ((1 : Fin 2) : ℕ) = 3 by decide] at this
    simpa [x2] using this
  · have := hw 0 o0 (0 : Fin 2)
    rw [show T (demo .byVDim) 0 ((0 : Fin 2) : ℕ) = 0 by decide] at this
    simpa [x0, not_le.2 (zero_lt_one (α := ℝ))] using this
  · have := hw 0 o0 (1 : Fin 2)
    rw [show T (demo .byVDim) 0 ((1 : Fin 2) : ℕ) = 1 by decide] at this
    simpa [x0, not_le.2 (zero_lt_one (α := ℝ))] using this

/-- The attribute call on attribute 1 succeeds and marks node 0. -/
example (f : (Fin 2 → ℝ) → ℝ → (Fin 2 → ℝ)) : ∃ c, (demo .byNodes).byAttributes [1] f = some c ∧ OnAttrs (demo .byNodes) [1] 0 ∧
    ¬ OnAttrs (demo .byNodes) [1] 2 := by
  refine ⟨_, rfl, ⟨1, by simp, rfl⟩, ?_⟩
  rintro ⟨a, ha, h⟩
  simp [demo] at h

/-- Two conditions on the same dof: the later one is seen. -/
example (v : ℕ → ℝ) : ∃ w, (demo .byNodes).setAll [(demo .byNodes).byDofList [0, 1] (fun _ _ _ => 7),
    (demo .byNodes).byDofList [1] (fun _ _ _ => 9)] 0 4 v = some w ∧ w 0 = 7 ∧ w 1 = 9 ∧ w 2 = v 2 := by
  have ok := demo_ok .byNodes
  obtain ⟨w1, h1, hw1⟩ := C67_list (demo .byNodes) ok [0, 1] (fun _ _ _ => 7) 0 v
  obtain ⟨w2, h2, hw2⟩ := C67_list (demo .byNodes) ok [1] (fun _ _ _ => 9) 0 w1
  have hall : (demo .byNodes).setAll [(demo .byNodes).byDofList [0, 1] (fun _ _ _ => 7),
      (demo .byNodes).byDofList [1] (fun _ _ _ => 9)] 0 4 v = some w2 := by
    rw [Rank.setAll, show (demo .byNodes).setDofs _ 0 4 v = some w1 from h1, Option.bind_some, Rank.setAll,
      show (demo .byNodes).setDofs _ 0 4 w1 = some w2 from h2, Option.bind_some, Rank.setAll]
  have o0 : Owned (demo .byNodes) 0 := by unfold Owned; decide
  have o2 : Owned (demo .byNodes) 2 := by unfold Owned; decide
  have t00 : T (demo .byNodes) 0 ((0 : Fin 2) : ℕ) = 0 := by decide
  have t01 : T (demo .byNodes) 0 ((1 : Fin 2) : ℕ) = 1 := by decide
  have t20 : T (demo .byNodes) 2 ((0 : Fin 2) : ℕ) = 2 := by decide
  refine ⟨w2, hall, ?_, ?_, ?_⟩
  · have a := hw2 0 o0 (0 : Fin 2)
    have b := hw1 0 o0 (0 : Fin 2)
    rw [t00] at a b
    simpa [b] using a
  · have a := hw2 0 o0 (1 : Fin 2)
    rw [t01] at a
    simpa using a
  · have a := hw2 2 o2 (0 : Fin 2)
    have b := hw1 2 o2 (0 : Fin 2)
    rw [t20] at a b
    simpa [b] using a

end Serac.C67
