import Verif.Props.C07
/-!
# C08: block offsets partition the element vector

Full statement: the blocks are contiguous, disjoint and cover the element vector, block gather/scatter are the gathers/scatters
of the parts and are transposes of each other, and the reported sizes are those of the whole vector.
The reported `ESize()` is that of the first block only: `C08_esize_wrong`.
-/

namespace Serac.C08
open ElementRestriction BlockRestriction

/-- Specification: start of block `g` is the total size of the blocks before it. -/
def start (b : BlockRestriction) (g : Nat) : Nat := ∑ k ∈ Finset.range g, b.blockSize k

/-- Total size of the element vector. -/
def total (b : BlockRestriction) : Nat := start b numGeometries

private theorem offsets_aux (f : Nat → Nat) (n : Nat) :
    (List.range n).foldl (fun offs g => offs ++ [offs.getLastD 0 + f g]) [0]
      = (List.range (n + 1)).map fun g => ∑ k ∈ Finset.range g, f k := by
  induction n with
  | zero => rfl
  | succ n ih =>
    rw [List.range_succ, List.foldl_append, ih]
    conv_rhs => rw [List.range_succ, List.map_append]
    simp only [List.foldl_cons, List.foldl_nil, List.map_cons, List.map_nil]
    congr 2
    rw [Finset.sum_range_succ, List.range_succ, List.map_append]
    simp

theorem bOffsets_eq (b : BlockRestriction) : b.bOffsets = (List.range (numGeometries + 1)).map (start b) :=
  offsets_aux b.blockSize numGeometries

theorem bOffsets_getD (b : BlockRestriction) (g : Nat) (hg : g ≤ numGeometries) : b.bOffsets.getD g 0 = start b g := by
  rw [bOffsets_eq, List.getD_eq_getElem?_getD, List.getElem?_map, List.getElem?_range (by omega)]
  rfl

/-- **C08.**  There are `NUM_GEOMETRIES + 1` offsets: the first is 0, consecutive ones differ by the block's size. -/
theorem C08_offsets (b : BlockRestriction) :
    b.bOffsets.length = numGeometries + 1 ∧ b.bOffsets[0]? = some 0 ∧
    ∀ g < numGeometries, ∃ o o', b.bOffsets[g]? = some o ∧ b.bOffsets[g + 1]? = some o' ∧ o' = o + b.blockSize g := by
  rw [bOffsets_eq]
  refine ⟨by simp, by simp [start, numGeometries], fun g hg => ⟨start b g, start b (g + 1), ?_, ?_, ?_⟩⟩
  · rw [List.getElem?_map, List.getElem?_range (by omega)]; rfl
  · rw [List.getElem?_map, List.getElem?_range (by omega)]; rfl
  · simp [start, Finset.sum_range_succ]

theorem start_mono (b : BlockRestriction) {g h : Nat} (hgh : g ≤ h) : start b g ≤ start b h := by
  unfold start
  obtain ⟨d, rfl⟩ := Nat.exists_eq_add_of_le hgh
  rw [Finset.sum_range_add]; omega

/-- **C08.**  Every position of the element vector lies in exactly one block. -/
theorem C08_partition (b : BlockRestriction) (e : Nat) (he : e < total b) :
    ∃! g, g < numGeometries ∧ start b g ≤ e ∧ e < start b g + b.blockSize g := by
  have hstep : ∀ g, start b (g + 1) = start b g + b.blockSize g := fun g => by simp [start, Finset.sum_range_succ]
  have hex : ∀ n, e < start b n → ∃ g < n, start b g ≤ e ∧ e < start b (g + 1) := by
    intro n
    induction n with
    | zero => intro h; simp [start] at h
    | succ n ih =>
      intro h
      by_cases hn : e < start b n
      · obtain ⟨g, hg, h1⟩ := ih hn; exact ⟨g, by omega, h1⟩
      · exact ⟨n, by omega, by omega, h⟩
  obtain ⟨g, hg, h1, h2⟩ := hex numGeometries he
  refine ⟨g, ⟨hg, h1, by rw [← hstep]; exact h2⟩, ?_⟩
  rintro g' ⟨-, h1', h2'⟩
  rw [← hstep] at h2'
  rcases Nat.lt_trichotomy g' g with h | h | h
  · have := start_mono b (g := g' + 1) (h := g) (by omega); omega
  · exact h
  · have := start_mono b (g := g + 1) (h := g') (by omega); omega

/-- All parts come from one space: same L-size, all dofs in bounds. -/
def WF (b : BlockRestriction) (n : Nat) : Prop := ∀ g r, b g = some r → r.lsize = n ∧ C07.InBounds r

variable {R : Type}

private theorem view_size (b : BlockRestriction) (g : Nat) (r : ElementRestriction)
    (h : b g = some r) : start b (g + 1) - start b g = r.esize := by
  simp [start, Finset.sum_range_succ, blockSize, h]

private theorem gather_aux (b : BlockRestriction) (n : Nat) (hb : WF b n) (L : Vec R) (hL : L.size = n) (E : Nat → R) :
    ∀ m ≤ numGeometries, ∃ G, (List.range m).foldlM (fun E g =>
      match b g with
      | none => some E
      | some r =>
        let off := b.bOffsets.getD g 0
        let n := b.bOffsets.getD (g + 1) 0 - off
        (r.gather L (viewGet E off n)).map (viewPut E off n)) E = some G ∧
      (∀ g < m, ∀ r, b g = some r → ∀ i < r.numElements, ∀ c < r.components, ∀ j < r.nodesPerElem,
        G (start b g + C07.epos r i c j) = L.val (r.vdof i j c)) ∧
      (∀ k, start b m ≤ k → G k = E k) := by
  intro m
  induction m with
  | zero => intro _; exact ⟨E, rfl, by intro g hg; omega, fun _ _ => rfl⟩
  | succ m ih =>
    intro hm
    obtain ⟨G, h1, h2, h3⟩ := ih (by omega)
    rw [List.range_succ, List.foldlM_append, h1]
    simp only [Option.bind_eq_bind, Option.bind_some, List.foldlM_cons, List.foldlM_nil]
    cases hbm : b m with
    | none =>
      refine ⟨G, rfl, ?_, ?_⟩
      · intro g hg r hr
        rcases Nat.lt_succ_iff_lt_or_eq.mp hg with h | rfl
        · exact h2 g h r hr
        · rw [hbm] at hr; cases hr
      · intro k hk; apply h3
        have := start_mono b (g := m) (h := m + 1) (by omega); omega
    | some r =>
      have hsz := view_size b m r hbm
      simp only [bOffsets_getD b m (by omega), bOffsets_getD b (m + 1) (by omega), hsz]
      obtain ⟨V, v1, v2, v3⟩ := C07.C07_gather r (hb m r hbm).2 L (viewGet G (start b m) r.esize)
        (by rw [hL, (hb m r hbm).1]) rfl
      refine ⟨viewPut G (start b m) r.esize V, by simp [v1], ?_, ?_⟩
      · intro g hg r' hr' i hi c hc j hj
        rcases Nat.lt_succ_iff_lt_or_eq.mp hg with h | rfl
        · have he : C07.epos r' i c j < r'.esize := (C07.C07_positions r' _).mpr ⟨i, hi, c, hc, j, hj, rfl⟩
          have hs : start b (g + 1) = start b g + r'.esize := by simp [start, Finset.sum_range_succ, blockSize, hr']
          have := start_mono b (g := g + 1) (h := m) (by omega)
          unfold viewPut
          rw [if_neg (by omega)]
          exact h2 g h r' hr' i hi c hc j hj
        · obtain rfl : r = r' := by rw [hbm] at hr'; exact Option.some.inj hr'
          have he : C07.epos r i c j < r.esize := (C07.C07_positions r _).mpr ⟨i, hi, c, hc, j, hj, rfl⟩
          unfold viewPut
          rw [if_pos (by omega), Nat.add_sub_cancel_left]
          exact v3 i hi c hc j hj
      · intro k hk
        have hs : start b (m + 1) = start b m + r.esize := by simp [start, Finset.sum_range_succ, blockSize, hbm]
        unfold viewPut
        rw [if_neg (by omega)]
        exact h3 k (by omega)

/-- **C08.**  Block gather puts, in block `g`, exactly what the gather of geometry `g` produces, and writes nothing
beyond the element vector. -/
theorem C08_gather (b : BlockRestriction) (n : Nat) (hb : WF b n) (L : Vec R) (hL : L.size = n) (E : Nat → R) :
    ∃ G, b.gather L E = some G ∧
      (∀ g < numGeometries, ∀ r, b g = some r → ∀ i < r.numElements, ∀ c < r.components, ∀ j < r.nodesPerElem,
        G (start b g + C07.epos r i c j) = L.val (r.vdof i j c)) ∧
      (∀ k, total b ≤ k → G k = E k) :=
  gather_aux b n hb L hL E numGeometries (Nat.le_refl _)

/-- Sum over all (geometry, element, component, node) slots of the mesh. -/
def slotSum {M : Type} [AddCommMonoid M] (b : BlockRestriction) (f : Nat → ElementRestriction → Nat → Nat → Nat → M) : M :=
  ∑ g ∈ Finset.range numGeometries,
    match b g with
    | none => 0
    | some r => ∑ i ∈ Finset.range r.numElements, ∑ c ∈ Finset.range r.components,
        ∑ j ∈ Finset.range r.nodesPerElem, f g r i c j

private theorem scatter_aux [AddCommMonoid R] (b : BlockRestriction) (n : Nat) (hb : WF b n) (E : Nat → R)
    (L : Vec R) (hL : L.size = n) :
    ∀ m ≤ numGeometries, ∃ S, (List.range m).foldlM (fun L g =>
      match b g with
      | none => some L
      | some r =>
        let off := b.bOffsets.getD g 0
        let n := b.bOffsets.getD (g + 1) 0 - off
        r.scatterAdd (viewGet E off n) L) L = some S ∧ S.size = n ∧
      ∀ k, S.val k = L.val k + ∑ g ∈ Finset.range m,
        match b g with
        | none => 0
        | some r => ∑ i ∈ Finset.range r.numElements, ∑ c ∈ Finset.range r.components,
            ∑ j ∈ Finset.range r.nodesPerElem,
              if r.vdof i j c = k then E (start b g + C07.epos r i c j) else 0 := by
  intro m
  induction m with
  | zero => intro _; exact ⟨L, rfl, hL, by simp⟩
  | succ m ih =>
    intro hm
    obtain ⟨S, h1, h2, h3⟩ := ih (by omega)
    rw [List.range_succ, List.foldlM_append, h1]
    simp only [Option.bind_eq_bind, Option.bind_some, List.foldlM_cons, List.foldlM_nil]
    cases hbm : b m with
    | none =>
      refine ⟨S, rfl, h2, fun k => ?_⟩
      rw [h3 k, Finset.sum_range_succ]; simp [hbm]
    | some r =>
      have hsz := view_size b m r hbm
      simp only [bOffsets_getD b m (by omega), bOffsets_getD b (m + 1) (by omega), hsz]
      obtain ⟨V, v1, v2, v3⟩ := C07.C07_scatterAdd r (hb m r hbm).2 (viewGet E (start b m) r.esize) S
        (by rw [h2, (hb m r hbm).1]) rfl
      refine ⟨V, by simp [v1], by rw [v2, (hb m r hbm).1], fun k => ?_⟩
      rw [v3 k, h3 k, Finset.sum_range_succ, add_assoc]
      simp [hbm, viewGet]

/-- **C08.**  Block scatter accumulates the contributions of every geometry. -/
theorem C08_scatterAdd [AddCommMonoid R] (b : BlockRestriction) (n : Nat) (hb : WF b n) (E : Nat → R)
    (L : Vec R) (hL : L.size = n) :
    ∃ S, b.scatterAdd E L = some S ∧ S.size = n ∧
      ∀ k, S.val k = L.val k +
        slotSum b (fun g r i c j => if r.vdof i j c = k then E (start b g + C07.epos r i c j) else 0) :=
  scatter_aux b n hb E L hL numGeometries (Nat.le_refl _)

/-- Sum over all positions of one block. -/
private theorem sum_block {M : Type} [AddCommMonoid M] (r : ElementRestriction) (f : Nat → M) :
    ∑ e ∈ Finset.range r.esize, f e = ∑ i ∈ Finset.range r.numElements, ∑ c ∈ Finset.range r.components,
        ∑ j ∈ Finset.range r.nodesPerElem, f (C07.epos r i c j) := by
  have h := sum_loopIds r (fun e _ => f e)
  rw [← sum_map_range, ← loopIds_fst, List.map_map]
  exact h

private theorem sum_blocks {M : Type} [AddCommMonoid M] (b : BlockRestriction) (f : Nat → M) (m : Nat) :
    ∑ e ∈ Finset.range (start b m), f e = ∑ g ∈ Finset.range m,
      ∑ e ∈ Finset.range (b.blockSize g), f (start b g + e) := by
  induction m with
  | zero => simp [start]
  | succ m ih =>
    have : start b (m + 1) = start b m + b.blockSize m := by simp [start, Finset.sum_range_succ]
    rw [this, Finset.sum_range_add, ih, Finset.sum_range_succ]

/-- **C08.**  Block gather and block scatter are transposes: `<Gather x, y> = <x, ScatterAdd y>` over the whole vector. -/
theorem C08_transpose [CommRing R] (b : BlockRestriction) (n : Nat) (hb : WF b n) (x : Vec R) (hx : x.size = n)
    (y E0 : Nat → R) :
    ∃ G S, b.gather x E0 = some G ∧ b.scatterAdd y ⟨n, fun _ => 0⟩ = some S ∧
      C07.dot (total b) G y = C07.dot n x.val S.val := by
  obtain ⟨G, g1, g2, -⟩ := C08_gather b n hb x hx E0
  obtain ⟨S, s1, -, s3⟩ := C08_scatterAdd b n hb y ⟨n, fun _ => 0⟩ rfl
  refine ⟨G, S, g1, s1, ?_⟩
  unfold C07.dot total
  rw [sum_blocks b (fun e => G e * y e)]
  have rhs : ∀ k, S.val k = ∑ g ∈ Finset.range numGeometries,
      (match b g with
        | none => 0
        | some r => ∑ i ∈ Finset.range r.numElements, ∑ c ∈ Finset.range r.components,
            ∑ j ∈ Finset.range r.nodesPerElem,
              if r.vdof i j c = k then y (start b g + C07.epos r i c j) else 0) := by
    intro k; rw [s3 k]; simp [slotSum]
  simp only [rhs, Finset.mul_sum]
  rw [Finset.sum_comm]
  apply Finset.sum_congr rfl
  intro g hg
  have hg' : g < numGeometries := Finset.mem_range.mp hg
  cases hbg : b g with
  | none => simp [blockSize, hbg]
  | some r =>
    simp only [blockSize, hbg]
    rw [sum_block r (fun e => G (start b g + e) * y (start b g + e))]
    simp only [Finset.mul_sum]
    conv_rhs => rw [Finset.sum_comm]
    apply Finset.sum_congr rfl
    intro i hi
    conv_rhs => rw [Finset.sum_comm]
    apply Finset.sum_congr rfl
    intro c hc
    conv_rhs => rw [Finset.sum_comm]
    apply Finset.sum_congr rfl
    intro j hj
    have hi' := Finset.mem_range.mp hi
    have hc' := Finset.mem_range.mp hc
    have hj' := Finset.mem_range.mp hj
    rw [g2 g hg' r hbg i hi' c hc' j hj']
    simp only [mul_ite, mul_zero]
    rw [Finset.sum_ite_eq]
    have := (hb g r hbg).2 i hi' c hc' j hj'
    rw [(hb g r hbg).1] at this
    simp [this]

/-- **C08, sizes.**  The reported L-size is the right one whenever there is at least one geometry. -/
theorem C08_lsize (b : BlockRestriction) (n : Nat) (hb : WF b n) (g : Nat) (hg : g < numGeometries) (h : (b g).isSome) :
    b.lsize = some n := by
  have hmem : g ∈ b.keys := by simp [keys, hg, h]
  cases hk : b.keys with
  | nil => rw [hk] at hmem; cases hmem
  | cons a l =>
    have ha : a ∈ b.keys := by rw [hk]; simp
    simp only [keys, List.mem_filter, List.mem_range] at ha
    obtain ⟨r, hr⟩ := Option.isSome_iff_exists.mp ha.2
    simp [BlockRestriction.lsize, hk, hr, (hb a r hr).1]

/-- A mesh with one triangle (geometry 2) and one quadrilateral (geometry 3) sharing an edge: 5 dofs. -/
def mixed : BlockRestriction := fun g =>
  if g = 2 then some (ElementRestriction.build .byNODES 5 1 1 3 (fun _ j => DoF.mk3 (BitVec.ofNat 64 j) 0 0))
  else if g = 3 then some (ElementRestriction.build .byNODES 5 1 1 4 (fun _ j => DoF.mk3 (BitVec.ofNat 64 (j + 1)) 0 0))
  else none

/-- **The code violates the size part**: on a mixed mesh `ESize()` is the size of the first block, not of the vector. -/
theorem C08_esize_wrong : mixed.esize = some 3 ∧ total mixed = 7 := by decide

/-- `ESize()` is right exactly when the blocks after the first are empty. -/
theorem C08_esize_partial (b : BlockRestriction) (a : Nat) (l : List Nat) (hk : b.keys = a :: l) :
    b.esize = some (total b) ↔ ∀ g < numGeometries, g ≠ a → b.blockSize g = 0 := by
  have ha : a ∈ b.keys := by rw [hk]; simp
  simp only [keys, List.mem_filter, List.mem_range] at ha
  obtain ⟨r, hr⟩ := Option.isSome_iff_exists.mp ha.2
  have he : b.esize = some (b.blockSize a) := by simp [BlockRestriction.esize, hk, hr, blockSize]
  have ht : total b = b.blockSize a + ∑ g ∈ (Finset.range numGeometries).erase a, b.blockSize g := by
    unfold total start
    rw [Finset.add_sum_erase _ _ (Finset.mem_range.mpr ha.1)]
  rw [he, Option.some.injEq, ht]
  constructor
  · intro h g hg hga
    have : ∑ g ∈ (Finset.range numGeometries).erase a, b.blockSize g = 0 := by omega
    exact (Finset.sum_eq_zero_iff.mp this) g (Finset.mem_erase.mpr ⟨hga, Finset.mem_range.mpr hg⟩)
  · intro h
    rw [Finset.sum_eq_zero]
    · simp
    · intro g hg
      rw [Finset.mem_erase, Finset.mem_range] at hg
      exact h g hg.2 hg.1

example : WF mixed 5 := by
  intro g r h
  unfold mixed at h
  split at h
  · obtain rfl := Option.some.inj h
    refine ⟨rfl, C07.inBounds_of_nodes _ rfl (by decide) ?_⟩
    intro i hi j hj
    have hi' : i < 1 := hi
    obtain rfl : i = 0 := by omega
    have hj' : j < 3 := hj
    interval_cases j <;> decide
  · split at h
    · obtain rfl := Option.some.inj h
      refine ⟨rfl, C07.inBounds_of_nodes _ rfl (by decide) ?_⟩
      intro i hi j hj
      have hi' : i < 1 := hi
      obtain rfl : i = 0 := by omega
      have hj' : j < 4 := hj
      interval_cases j <;> decide
    · cases h
example : 3 ∈ mixed.keys := by decide

end Serac.C08
