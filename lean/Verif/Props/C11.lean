import Verif.Props.C10
/-!
# C11: domain set operations are the set operations

Full statement: union, intersection and difference of two domains of the same dimension contain exactly the entities of the union,
intersection and difference, sorted, without duplicates, *and* the dofs reported for the result are those of its entities.

The code violates the second half: the result of a set operation always reports no dofs (`C11_combined_dofs_lost`), and so does the
entire domain (`C11_entire_domain_dofs_lost`); face domains of a 3D mesh report dofs of unrelated elements (`C11_faces3_dofs_wrong`).
-/

namespace Serac.C11
open Dom C10

/-- Domains made by this API: per geometry strictly increasing positions, and nothing outside the domain's own dimension. -/
structure Ordered (a : Domain) : Prop where
  sorted : ∀ g, (a.ids g).Pairwise (· < ·)
  dim : ∀ g, geomDim g ≠ some a.dim → a.ids g = []

/-- **C11, union.** -/
theorem C11_union_partial (a b : Domain) (ha : Ordered a) (hb : Ordered b) (hd : a.dim = b.dim) :
    (union a b).dim = a.dim ∧ Ordered (union a b) ∧ ∀ g i, i ∈ (union a b).ids g ↔ i ∈ a.ids g ∨ i ∈ b.ids g := by
  refine ⟨rfl, ⟨fun g => ?_, fun g hg => ?_⟩, fun g i => ?_⟩
  · simp only [union, setOperation]
    split
    · exact setUnion_sorted _ _ (ha.sorted g) (hb.sorted g)
    · exact List.Pairwise.nil
  · exact if_neg hg
  · simp only [union, setOperation]
    split
    · exact mem_setUnion _ _ i
    · rename_i h; rw [ha.dim g h, hb.dim g (by rwa [← hd])]; simp

/-- **C11, intersection.** -/
theorem C11_intersection_partial (a b : Domain) (ha : Ordered a) (hb : Ordered b) :
    (inter a b).dim = a.dim ∧ Ordered (inter a b) ∧ ∀ g i, i ∈ (inter a b).ids g ↔ i ∈ a.ids g ∧ i ∈ b.ids g := by
  refine ⟨rfl, ⟨fun g => ?_, fun g hg => ?_⟩, fun g i => ?_⟩
  · simp only [inter, setOperation]
    split
    · exact (ha.sorted g).sublist (setInter_sub _ _)
    · exact List.Pairwise.nil
  · exact if_neg hg
  · simp only [inter, setOperation]
    split
    · exact mem_setInter _ _ (ha.sorted g) (hb.sorted g) i
    · rename_i h; rw [ha.dim g h]; simp

/-- **C11, difference.** -/
theorem C11_difference_partial (a b : Domain) (ha : Ordered a) (hb : Ordered b) :
    (diff a b).dim = a.dim ∧ Ordered (diff a b) ∧ ∀ g i, i ∈ (diff a b).ids g ↔ i ∈ a.ids g ∧ i ∉ b.ids g := by
  refine ⟨rfl, ⟨fun g => ?_, fun g hg => ?_⟩, fun g i => ?_⟩
  · simp only [diff, setOperation]
    split
    · exact (ha.sorted g).sublist (setDiff_sub _ _)
    · exact List.Pairwise.nil
  · exact if_neg hg
  · simp only [diff, setOperation]
    split
    · exact mem_setDiff _ _ (ha.sorted g) (hb.sorted g) i
    · rename_i h; rw [ha.dim g h]; simp

private theorem strictly_sorted_ext {a b : List Nat} (ha : a.Pairwise (· < ·)) (hb : b.Pairwise (· < ·))
    (h : ∀ i, i ∈ a ↔ i ∈ b) : a = b := by
  induction a generalizing b with
  | nil => cases b with | nil => rfl | cons y ys => exact absurd ((h y).mpr (by simp)) (by simp)
  | cons x xs ih =>
    cases b with
    | nil => exact absurd ((h x).mp (by simp)) (by simp)
    | cons y ys =>
      rw [List.pairwise_cons] at ha hb
      have hxy : x = y := by
        rcases List.mem_cons.mp ((h x).mp (by simp)) with h1 | h1
        · exact h1
        · rcases List.mem_cons.mp ((h y).mpr (by simp)) with h2 | h2
          · exact h2.symm
          · have := hb.1 x h1; have := ha.1 y h2; omega
      subst hxy
      congr 1
      apply ih ha.2 hb.2
      intro i
      have := h i
      simp only [List.mem_cons] at this
      constructor
      · intro hi
        rcases this.mp (Or.inr hi) with h1 | h1
        · have := ha.1 i hi; omega
        · exact h1
      · intro hi
        rcases this.mpr (Or.inr hi) with h1 | h1
        · have := hb.1 i hi; omega
        · exact h1

/-- **C11, algebra.**  The operations obey the laws of sets as equalities of the stored lists: a domain is recovered from its pieces. -/
theorem C11_partition_partial (a b : Domain) (ha : Ordered a) (hb : Ordered b) (hd : a.dim = b.dim) :
    ∀ g, (union (inter a b) (diff a b)).ids g = a.ids g ∧ (union a b).ids g = (union b a).ids g ∧
      (diff (union a b) b).ids g = (diff a b).ids g := by
  intro g
  have hi := C11_intersection_partial a b ha hb
  have hf := C11_difference_partial a b ha hb
  have hu := C11_union_partial a b ha hb hd
  have hu' := C11_union_partial b a hb ha hd.symm
  have h1 := C11_union_partial _ _ hi.2.1 hf.2.1 rfl
  have h2 := C11_difference_partial _ _ hu.2.1 hb
  refine ⟨strictly_sorted_ext (h1.2.1.sorted g) (ha.sorted g) fun i => ?_,
    strictly_sorted_ext (hu.2.1.sorted g) (hu'.2.1.sorted g) fun i => ?_,
    strictly_sorted_ext (h2.2.1.sorted g) (hf.2.1.sorted g) fun i => ?_⟩
  · rw [h1.2.2, hi.2.2, hf.2.2]; tauto
  · rw [hu.2.2, hu'.2.2]; tauto
  · rw [h2.2.2, hu.2.2, hf.2.2]; tauto

/-- Every selection (C10) whose entities have the domain's dimension is `Ordered`. -/
theorem ordered_of_selects (dom : Domain) (n : Nat) (geom : Nat → Option Geom) (sel : Nat → Bool)
    (h : Selects dom n geom sel) (hdim : ∀ i < n, ∀ g, geom i = some g → geomDim g = some dom.dim) : Ordered dom := by
  constructor
  · intro g
    rw [h.pos g, List.pairwise_map]
    refine (List.pairwise_lt_range.filter _).imp_of_mem ?_
    intro i j hi _ hij
    simp only [List.mem_filter, Bool.and_eq_true, beq_iff_eq] at hi
    have := rank_mono (fun k => (geom k).map fun x => (x, true)) g i j hij (by simp [hi.2.1])
    unfold rank at this
    have e : ∀ k, (((geom k).map fun x => (x, true)).map Prod.fst == some g) = (geom k == some g) := by
      intro k; cases geom k <;> rfl
    simpa only [e] using this
  · intro g hg
    rw [h.pos g, List.map_eq_nil_iff, List.filter_eq_nil_iff]
    intro i hi hc
    simp only [Bool.and_eq_true, beq_iff_eq] at hc
    exact hg (hdim i (List.mem_range.mp hi) g hc.1)

/-- Element domains of a supported mesh are `Ordered`, so the set operations apply to them. -/
theorem elements_ordered {R : Type} (m : Mesh R) (d : Nat) (hd : d = 2 ∨ d = 3) (wf : WF m d) (hs : SupportedElems m d)
    (p : Pred R) : ∃ dom, ofElements m d p = some dom ∧ Ordered dom := by
  obtain ⟨dom, h1, h2, h3, h4⟩ := C10_elements m d hd wf hs p
  refine ⟨dom, h1, ordered_of_selects _ _ _ _ h4 ?_⟩
  intro i hi g hg
  simp only [elemGeomAt, Option.map_eq_some_iff] at hg
  obtain ⟨e, he, rfl⟩ := hg
  have := hs e (List.mem_of_getElem? he)
  rw [h2]
  rcases hd with rfl | rfl
  · simp only [if_true] at this; rcases this with h | h <;> rw [h] <;> rfl
  · simp only [show ¬ (3 : Nat) = 2 by decide, if_false] at this; rcases this with h | h <;> rw [h] <;> rfl

/-- Boundary-element domains are `Ordered`. -/
theorem boundary_ordered {R : Type} (m : Mesh R) (d : Nat) (hd : d = 2 ∨ d = 3) (wf : WF m d) (p : Pred R) :
    ∃ dom, ofBoundaryElements m d p = some dom ∧ Ordered dom := by
  obtain ⟨dom, h1, h2, h3, h4⟩ := C10_boundary_elements m d wf p
  refine ⟨dom, h1, ordered_of_selects _ _ _ _ h4 ?_⟩
  intro i hi g hg
  simp only [outerFaceGeomAt, Option.bind_eq_some_iff] at hg
  obtain ⟨f, hf, h⟩ := hg
  have hgeom := wf.faceGeom f (List.mem_of_getElem? hf)
  split at h
  · cases h
  · obtain rfl := Option.some.inj h
    rw [h2]
    rcases hd with rfl | rfl
    · simp only [if_true] at hgeom; rw [hgeom]; rfl
    · simp only [show ¬ (3 : Nat) = 2 by decide, if_false] at hgeom; rcases hgeom with h | h <;> rw [h] <;> rfl

/-- **C11, dofs of a predicate-built element domain** (2D): the sorted, duplicate-free union of the dofs of the selected elements. -/
theorem C11_element_dofs_partial {R : Type} (m : Mesh R) (d : Nat) (hd : d = 2 ∨ d = 3) (wf : WF m d)
    (hs : SupportedElems m d) (p : Pred R) (elemDofs faceDofs : Nat → List Nat) :
    ∃ dom, ofElements m d p = some dom ∧ (dom.dofList elemDofs faceDofs).Pairwise (· < ·) ∧
      ∀ z, z ∈ dom.dofList elemDofs faceDofs ↔
        ∃ i e, m.elems[i]? = some e ∧ p (e.verts.map (position m d)) e.attr = true ∧ z ∈ elemDofs i := by
  obtain ⟨dom, h1, h2, h3, h4⟩ := C10_elements m d hd wf hs p
  refine ⟨dom, h1, ?_⟩
  have key : ∀ g0 g1, (if d = 2 then (g0, g1) = (Geom.triangle, Geom.square) else (g0, g1) = (.tetrahedron, .cube)) →
      ∀ i, i ∈ dom.mfemIds g0 ++ dom.mfemIds g1 ↔
        ∃ e, m.elems[i]? = some e ∧ p (e.verts.map (position m d)) e.attr = true := by
    intro g0 g1 hgg i
    rw [List.mem_append, h4.mesh, h4.mesh]
    simp only [List.mem_filter, List.mem_range, Bool.and_eq_true, beq_iff_eq, elemGeomAt, Option.map_eq_some_iff, Option.any_eq_true]
    constructor
    · rintro (⟨-, -, e, he, hp⟩ | ⟨-, -, e, he, hp⟩) <;> exact ⟨e, he, hp⟩
    · rintro ⟨e, he, hp⟩
      have hlt : i < m.elems.length := (List.getElem?_eq_some_iff.mp he).1
      have := hs e (List.mem_of_getElem? he)
      rcases hd with rfl | rfl
      · simp only [if_true] at this hgg
        obtain ⟨rfl, rfl⟩ := Prod.mk.inj hgg
        rcases this with h | h
        · exact Or.inl ⟨hlt, ⟨e, he, h⟩, e, he, hp⟩
        · exact Or.inr ⟨hlt, ⟨e, he, h⟩, e, he, hp⟩
      · simp only [show ¬ (3 : Nat) = 2 by decide, if_false] at this hgg
        obtain ⟨rfl, rfl⟩ := Prod.mk.inj hgg
        rcases this with h | h
        · exact Or.inl ⟨hlt, ⟨e, he, h⟩, e, he, hp⟩
        · exact Or.inr ⟨hlt, ⟨e, he, h⟩, e, he, hp⟩
  rcases hd with rfl | rfl
  · have hk := key .triangle .square (by simp)
    have hspec := dofFold_spec elemDofs (dom.mfemIds .triangle ++ dom.mfemIds .square) [] List.Pairwise.nil
    simp only [Domain.dofList, h2, h3]
    refine ⟨hspec.1, fun z => ?_⟩
    rw [hspec.2]
    simp only [hk, List.not_mem_nil, or_false]
    constructor
    · rintro ⟨i, ⟨e, he, hp⟩, hz⟩; exact ⟨i, e, he, hp, hz⟩
    · rintro ⟨i, e, he, hp, hz⟩; exact ⟨i, ⟨e, he, hp⟩, hz⟩
  · have hk := key .tetrahedron .cube (by simp)
    have hspec := dofFold_spec elemDofs (dom.mfemIds .tetrahedron ++ dom.mfemIds .cube) [] List.Pairwise.nil
    simp only [Domain.dofList, h2, h3]
    refine ⟨hspec.1, fun z => ?_⟩
    rw [hspec.2]
    simp only [hk, List.not_mem_nil, or_false]
    constructor
    · rintro ⟨i, ⟨e, he, hp⟩, hz⟩; exact ⟨i, e, he, hp, hz⟩
    · rintro ⟨i, e, he, hp, hz⟩; exact ⟨i, ⟨e, he, hp⟩, hz⟩

/-- **C11, dofs of a predicate-built boundary domain**: the sorted, duplicate-free union of the dofs of the selected outer faces. -/
theorem C11_boundary_dofs_partial {R : Type} (m : Mesh R) (d : Nat) (hd : d = 2 ∨ d = 3) (wf : WF m d) (p : Pred R)
    (elemDofs faceDofs : Nat → List Nat) :
    ∃ dom, ofBoundaryElements m d p = some dom ∧ (dom.dofList elemDofs faceDofs).Pairwise (· < ·) ∧
      ∀ z, z ∈ dom.dofList elemDofs faceDofs ↔
        ∃ i f, m.faces[i]? = some f ∧ f.interior = false ∧ p (f.verts.map (position m d)) (boundaryAttr m f) = true ∧
          z ∈ faceDofs i := by
  obtain ⟨dom, h1, h2, h3, h4⟩ := C10_boundary_elements m d wf p
  refine ⟨dom, h1, ?_⟩
  have key : ∀ g i, i ∈ dom.mfemIds g ↔ ∃ f, m.faces[i]? = some f ∧ f.interior = false ∧ f.geom = g ∧
      p (f.verts.map (position m d)) (boundaryAttr m f) = true := by
    intro g i
    rw [h4.mesh]
    simp only [List.mem_filter, List.mem_range, Bool.and_eq_true, beq_iff_eq, outerFaceGeomAt, Option.bind_eq_some_iff,
      Option.any_eq_true]
    constructor
    · rintro ⟨-, ⟨f, hf, hg⟩, f', hf', hp⟩
      obtain rfl : f = f' := by rw [hf] at hf'; exact Option.some.inj hf'
      split at hg
      · cases hg
      · rename_i hint
        exact ⟨f, hf, by simpa using hint, Option.some.inj hg, hp⟩
    · rintro ⟨f, hf, hint, hg, hp⟩
      exact ⟨(List.getElem?_eq_some_iff.mp hf).1, ⟨f, hf, by simp [hint, hg]⟩, f, hf, hp⟩
  rcases hd with rfl | rfl
  · have hspec := dofFold_spec faceDofs (dom.mfemIds .segment) [] List.Pairwise.nil
    simp only [Domain.dofList, h2, h3]
    refine ⟨hspec.1, fun z => ?_⟩
    rw [hspec.2]
    simp only [key, List.not_mem_nil, or_false]
    constructor
    · rintro ⟨i, ⟨f, hf, hint, -, hp⟩, hz⟩; exact ⟨i, f, hf, hint, hp, hz⟩
    · rintro ⟨i, f, hf, hint, hp, hz⟩
      have := wf.faceGeom f (List.mem_of_getElem? hf)
      simp only [if_true] at this
      exact ⟨i, ⟨f, hf, hint, this, hp⟩, hz⟩
  · have hspec := dofFold_spec faceDofs (dom.mfemIds .triangle ++ dom.mfemIds .square) [] List.Pairwise.nil
    simp only [Domain.dofList, h2, h3]
    refine ⟨hspec.1, fun z => ?_⟩
    rw [hspec.2]
    simp only [List.mem_append, key, List.not_mem_nil, or_false]
    constructor
    · rintro ⟨i, (⟨f, hf, hint, -, hp⟩ | ⟨f, hf, hint, -, hp⟩), hz⟩ <;> exact ⟨i, f, hf, hint, hp, hz⟩
    · rintro ⟨i, f, hf, hint, hp, hz⟩
      have := wf.faceGeom f (List.mem_of_getElem? hf)
      simp only [show ¬ (3 : Nat) = 2 by decide, if_false] at this
      rcases this with h | h
      · exact ⟨i, Or.inl ⟨f, hf, hint, h, hp⟩, hz⟩
      · exact ⟨i, Or.inr ⟨f, hf, hint, h, hp⟩, hz⟩

/-! ### Where the code violates the property -/

/-- **The dofs of every union, intersection and difference are lost.** -/
theorem C11_combined_dofs_lost (a b : Domain) (elemDofs faceDofs : Nat → List Nat) :
    (union a b).dofList elemDofs faceDofs = [] ∧ (inter a b).dofList elemDofs faceDofs = [] ∧
      (diff a b).dofList elemDofs faceDofs = [] := by
  have h : ∀ op, (setOperation op a b).dofList elemDofs faceDofs = [] := by
    intro op
    unfold Domain.dofList setOperation
    dsimp only
    split <;> rfl
  exact ⟨h _, h _, h _⟩

/-- **The dofs of the entire domain are never reported.** -/
theorem C11_entire_domain_dofs_lost {R : Type} (m : Mesh R) (hs : ∀ e ∈ m.elems, isElemGeom e.geom = true)
    (elemDofs faceDofs : Nat → List Nat) :
    ∃ dom, entireDomain m = some dom ∧ dom.dofList elemDofs faceDofs = [] := by
  unfold entireDomain
  rw [foldlM_some _ (fun (s : Loop) (e : Elem) => s.fileAll e.geom) _ (by intro e he s; rw [if_pos (hs e he)])]
  refine ⟨_, rfl, ?_⟩
  have key : ∀ (l : List Elem) (s : Loop), (∀ g, s.dom.mfemIds g = []) →
      ∀ g, (l.foldl (fun (s : Loop) (e : Elem) => s.fileAll e.geom) s).dom.mfemIds g = [] := by
    intro l
    induction l with
    | nil => intro s hs; exact hs
    | cons e l ih => intro s hs; exact ih (s.fileAll e.geom) hs
  have hk := key m.elems ⟨fun _ => 0, Domain.empty m.sdim⟩ (fun _ => rfl)
  unfold Domain.dofList
  dsimp only
  split <;> simp [hk]

/-- **Faces of a 3D mesh report the dofs of elements**: for every mesh and predicate, the dofs reported for a face domain are those of
the mesh *elements* that happen to have the selected faces' numbers. -/
theorem C11_faces3_dofs_wrong {R : Type} (m : Mesh R) (wf : WF m 3) (p : Pred R) (elemDofs faceDofs : Nat → List Nat) :
    ∃ dom, ofFaces m 3 p = some dom ∧ ∀ z, z ∈ dom.dofList elemDofs faceDofs ↔
        ∃ i f, m.faces[i]? = some f ∧ p (f.verts.map (position m 3)) (boundaryAttr m f) = true ∧ z ∈ elemDofs i := by
  obtain ⟨dom, h1, h2, h3, h4⟩ := C10_faces3 m wf p
  refine ⟨dom, h1, ?_⟩
  have hspec := dofFold_spec elemDofs (dom.mfemIds .triangle ++ dom.mfemIds .square) [] List.Pairwise.nil
  simp only [Domain.dofList, h2, h3]
  intro z
  rw [hspec.2, h4.mesh, h4.mesh]
  simp only [List.mem_append, List.mem_filter, List.mem_range, Bool.and_eq_true, beq_iff_eq, faceGeomAt, Option.map_eq_some_iff,
    Option.any_eq_true, List.not_mem_nil, or_false]
  constructor
  · rintro ⟨i, (⟨-, -, f, hf, hp⟩ | ⟨-, -, f, hf, hp⟩), hz⟩ <;> exact ⟨i, f, hf, hp, hz⟩
  · rintro ⟨i, f, hf, hp, hz⟩
    have hlt : i < m.faces.length := (List.getElem?_eq_some_iff.mp hf).1
    have := wf.faceGeom f (List.mem_of_getElem? hf)
    simp only [show ¬ (3 : Nat) = 2 by decide, if_false] at this
    rcases this with h | h
    · exact ⟨i, Or.inl ⟨hlt, ⟨f, hf, h⟩, f, hf, hp⟩, hz⟩
    · exact ⟨i, Or.inr ⟨hlt, ⟨f, hf, h⟩, f, hf, hp⟩, hz⟩

/-! ### The hypotheses are met -/

example : ∃ a b, ofBoundaryElements sample 2 (byAttr 7) = some a ∧ ofBoundaryElements sample 2 (byAttr 8) = some b ∧
    Ordered a ∧ Ordered b ∧ a.dim = b.dim := by
  obtain ⟨a, ha, ha'⟩ := boundary_ordered sample 2 (Or.inl rfl) sample_wf (byAttr 7)
  obtain ⟨b, hb, hb'⟩ := boundary_ordered sample 2 (Or.inl rfl) sample_wf (byAttr 8)
  obtain ⟨a', h1, h2, -⟩ := C10_boundary_elements sample 2 sample_wf (byAttr 7)
  obtain ⟨b', h3, h4, -⟩ := C10_boundary_elements sample 2 sample_wf (byAttr 8)
  rw [ha] at h1; rw [hb] at h3
  obtain rfl := Option.some.inj h1
  obtain rfl := Option.some.inj h3
  exact ⟨a, b, ha, hb, ha', hb', by rw [h2, h4]⟩

/-- One tetrahedron: its four faces. -/
def tet : Mesh Int where
  dim := 3
  sdim := 3
  nv := 4
  coord := fun v j => ([[0, 0, 0], [1, 0, 0], [0, 1, 0], [0, 0, 1]].getD v []).getD j 0
  edges := [[0, 1], [0, 2], [0, 3], [1, 2], [1, 3], [2, 3]]
  elems := [⟨.tetrahedron, [0, 1, 2, 3], 1⟩]
  faces := [⟨.triangle, [1, 2, 3], false, 0⟩, ⟨.triangle, [0, 3, 2], false, 1⟩, ⟨.triangle, [0, 1, 3], false, 2⟩,
    ⟨.triangle, [0, 2, 1], false, 3⟩]
  bdrAttr := [1, 2, 3, 4]

theorem tet_wf : WF tet 3 where
  dim := rfl
  sdim := rfl
  elemVerts := by decide
  faceVerts := by decide
  edgeVerts := by decide
  bdr := by decide
  faceGeom := by decide
  edges2 := by decide

end Serac.C11
