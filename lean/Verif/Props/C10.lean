import Verif.Proofs.Domain
import Mathlib.Data.List.Induction
/-!
# C10: domain construction selects exactly the entities satisfying the predicate

Full statement: for every well-formed mesh and every predicate, each constructor returns a domain with exactly the entities for which
the predicate holds on their vertex positions and attribute.

It fails for `ofEdges` in two dimensions: the edge that is boundary element 0 is passed the attribute -1 (`C10_edges2_wrong`);
`C10_edges2_partial` covers meshes where no edge is boundary element 0.
-/

namespace Serac.C10
open Dom

variable {R : Type}

/-- `dom` holds exactly the selected entities: under each geometry, the mesh numbers of the selected entities in increasing order, and
for each its position among the entities of that geometry.  `geom i = none` means entity `i` is not counted at all. -/
structure Selects (dom : Domain) (n : Nat) (geom : Nat → Option Geom) (sel : Nat → Bool) : Prop where
  mesh : ∀ g, dom.mfemIds g = (List.range n).filter fun i => geom i == some g && sel i
  pos : ∀ g, dom.ids g = ((List.range n).filter fun i => geom i == some g && sel i).map
    fun i => ((List.range i).filter fun k => geom k == some g).length

/-- What MFEM guarantees about a `d`-dimensional mesh in `d`-dimensional space. -/
structure WF (m : Mesh R) (d : Nat) : Prop where
  dim : m.dim = d
  sdim : m.sdim = d
  elemVerts : ∀ e ∈ m.elems, (∀ v ∈ e.verts, v < m.nv) ∧ e.verts.length = e.geom.numVerts
  faceVerts : ∀ f ∈ m.faces, (∀ v ∈ f.verts, v < m.nv) ∧ f.verts.length = f.geom.numVerts
  edgeVerts : ∀ e ∈ m.edges, ∀ v ∈ e, v < m.nv
  bdr : ∀ f ∈ m.faces, f.bdr < m.bdrAttr.length
  faceGeom : ∀ f ∈ m.faces, if d = 2 then f.geom = .segment else f.geom = .triangle ∨ f.geom = .square
  edges2 : d = 2 → m.edges.length = m.faces.length

/-- Position of a vertex. -/
def position (m : Mesh R) (d v : Nat) : List R := (List.range d).map (m.coord v)

/-- Attribute of the boundary element on a face, -1 if there is none. -/
def boundaryAttr (m : Mesh R) (f : Face) : Int := if 0 ≤ f.bdr then m.bdrAttr.getD f.bdr.toNat 0 else -1

private theorem filter_chosen (n : Nat) (geom : Nat → Option Geom) (sel : Nat → Bool) (g : Geom) :
    chosen n (fun i => (geom i).map fun x => (x, sel i)) g = (List.range n).filter fun i => geom i == some g && sel i := by
  unfold chosen
  apply List.filter_congr
  intro i _
  dsimp only
  cases geom i with
  | none => rfl
  | some x =>
    rw [Bool.eq_iff_iff]
    simp only [Option.map_some, beq_iff_eq, Option.some.injEq, Prod.mk.injEq, Bool.and_eq_true]

private theorem rank_eq (geom : Nat → Option Geom) (sel : Nat → Bool) (g : Geom) (i : Nat) :
    rank (fun i => (geom i).map fun x => (x, sel i)) g i = ((List.range i).filter fun k => geom k == some g).length := by
  unfold rank
  congr 1
  apply List.filter_congr
  intro k _
  dsimp only
  cases geom k <;> rfl

private theorem selects_of_run (n : Nat) (geom : Nat → Option Geom) (sel : Nat → Bool) (d : Nat) (t : DType)
    (f : Loop → Nat → Loop) (hf : ∀ i < n, ∀ s, f s i = runItem s ((geom i).map fun x => (x, sel i)) i) :
    let dom := ((List.range n).foldl f ⟨fun _ => 0, Domain.empty d t⟩).dom
    dom.dim = d ∧ dom.type = t ∧ Selects dom n geom sel := by
  have hcongr : ∀ (l : List Nat) (s : Loop), (∀ i ∈ l, i < n) →
      l.foldl f s = l.foldl (fun s i => runItem s ((geom i).map fun x => (x, sel i)) i) s := by
    intro l
    induction l with
    | nil => intros; rfl
    | cons a l ih =>
      intro s h
      rw [List.foldl_cons, List.foldl_cons, hf a (h a (by simp)), ih _ (fun i hi => h i (by simp [hi]))]
  rw [hcongr _ _ (fun i hi => List.mem_range.mp hi)]
  have := run_spec n (fun i => (geom i).map fun x => (x, sel i)) d t
  refine ⟨this.1, this.2.1, fun g => ?_, fun g => ?_⟩
  · rw [this.2.2.2.1 g, filter_chosen]
  · rw [this.2.2.2.2 g, filter_chosen]
    apply List.map_congr_left
    intro i _; exact rank_eq geom sel g i

/-- The geometry under which `ofElements` files element `i`. -/
def elemGeomAt (m : Mesh R) (i : Nat) : Option Geom := (m.elems[i]?).map Elem.geom
def faceGeomAt (m : Mesh R) (i : Nat) : Option Geom := (m.faces[i]?).map Face.geom
/-- Faces that are not interior. -/
def outerFaceGeomAt (m : Mesh R) (i : Nat) : Option Geom := (m.faces[i]?).bind fun f => if f.interior then none else some f.geom

private theorem getD_getElem {α : Type} (l : List α) (i : Nat) (d : α) (h : i < l.length) : l[i]? = some (l.getD i d) := by
  simp [List.getD, h]

/-- Supported element shapes: triangles and quadrilaterals in 2D, tetrahedra and hexahedra in 3D. -/
def SupportedElems (m : Mesh R) (d : Nat) : Prop :=
  ∀ e ∈ m.elems, if d = 2 then e.geom = .triangle ∨ e.geom = .square else e.geom = .tetrahedron ∨ e.geom = .cube

/-- **C10, elements.** -/
theorem C10_elements (m : Mesh R) (d : Nat) (hd : d = 2 ∨ d = 3) (wf : WF m d) (hs : SupportedElems m d) (p : Pred R) :
    ∃ dom, ofElements m d p = some dom ∧ dom.dim = d ∧ dom.type = .elements ∧
      Selects dom m.elems.length (elemGeomAt m)
        (fun i => (m.elems[i]?).any fun e => p (e.verts.map (position m d)) e.attr) := by
  have hstep : ∀ ei ∈ m.elems.zipIdx, ∀ (s : Loop),
      ((gather d m.flat ei.1.verts).bind fun x => (elemGeom d x.length).map fun g => s.file g (p x ei.1.attr) ei.2)
        = some (s.file ei.1.geom (p (pts m d ei.1.verts) ei.1.attr) ei.2) := by
    intro ei hei s
    have he : ei.1 ∈ m.elems := by
      obtain ⟨a, b⟩ := ei; exact List.fst_mem_of_mem_zipIdx hei
    have hw := wf.elemVerts _ he
    have hg := hs _ he
    rw [gather_eq m d wf.sdim _ hw.1]
    have hl : (pts m d ei.1.verts).length = ei.1.geom.numVerts := by simp [pts, hw.2]
    have : elemGeom d (pts m d ei.1.verts).length = some ei.1.geom := by
      rw [hl]
      rcases hd with rfl | rfl
      · rcases hg with h | h <;> rw [h] <;> rfl
      · rcases hg with h | h <;> rw [h] <;> rfl
    simp [this]
  unfold ofElements
  rw [foldlM_some _ _ _ hstep]
  refine ⟨_, rfl, ?_⟩
  rw [foldl_zipIdx m.elems (fun (s : Loop) e i => s.file e.geom (p (pts m d e.verts) e.attr) i) ⟨.point, [], 0⟩]
  have h := selects_of_run m.elems.length (elemGeomAt m) (fun i => (m.elems[i]?).any fun e => p (e.verts.map (position m d)) e.attr)
    m.sdim .elements (fun s i => s.file (m.elems.getD i ⟨.point, [], 0⟩).geom
      (p (pts m d (m.elems.getD i ⟨.point, [], 0⟩).verts) (m.elems.getD i ⟨.point, [], 0⟩).attr) i) ?_
  · rw [wf.sdim] at h ⊢; exact h
  · intro i hi s
    simp only [elemGeomAt, getD_getElem m.elems i ⟨.point, [], 0⟩ hi, Option.map_some, runItem, Option.any_some]
    rfl

/-- **C10, unsupported elements are refused**: one prism or pyramid makes `ofElements` stop with an error. -/
theorem C10_elements_unsupported (m : Mesh R) (d : Nat) (wf : WF m d) (p : Pred R) (e : Elem) (he : e ∈ m.elems)
    (hg : e.geom = .prism ∨ e.geom = .pyramid) : ofElements m d p = none := by
  unfold ofElements
  rw [Option.map_eq_none_iff]
  obtain ⟨i, hi⟩ := List.mem_iff_getElem?.mp he
  have hmem : (e, i) ∈ m.elems.zipIdx := by rw [List.mem_zipIdx_iff_getElem?]; exact hi
  have hnone : ∀ s : Loop, ((gather d m.flat (e, i).1.verts).bind fun x =>
      (elemGeom d x.length).map fun g => s.file g (p x (e, i).1.attr) (e, i).2) = none := by
    intro s
    have hw := wf.elemVerts _ he
    rw [gather_eq m d wf.sdim _ hw.1]
    have hl : (pts m d e.verts).length = e.geom.numVerts := by simp [pts, hw.2]
    simp only [Option.bind_some, hl]
    rcases hg with h | h <;> rw [h] <;> rfl
  generalize m.elems.zipIdx = l at hmem
  generalize (⟨fun _ => 0, Domain.empty m.sdim⟩ : Loop) = s
  induction l generalizing s with
  | nil => cases hmem
  | cons a l ih =>
    rw [List.foldlM_cons]
    rcases List.mem_cons.mp hmem with h | h
    · subst h; rw [hnone]; rfl
    · cases ((gather d m.flat a.1.verts).bind fun x =>
          (elemGeom d x.length).map fun g => s.file g (p x a.1.attr) a.2) with
      | none => rfl
      | some s' => exact ih h s'

/-- **C10, boundary elements.** -/
theorem C10_boundary_elements (m : Mesh R) (d : Nat) (wf : WF m d) (p : Pred R) :
    ∃ dom, ofBoundaryElements m d p = some dom ∧ dom.dim = d - 1 ∧ dom.type = .boundaryElements ∧
      Selects dom m.faces.length (outerFaceGeomAt m)
        (fun i => (m.faces[i]?).any fun f => p (f.verts.map (position m d)) (boundaryAttr m f)) := by
  have hstep : ∀ fi ∈ m.faces.zipIdx, ∀ (s : Loop),
      (if fi.1.interior then some s else
        (gather d m.flat fi.1.verts).bind fun x => (faceAttr m fi.1.bdr).bind fun attr =>
        if isFaceGeom fi.1.geom then some (s.file fi.1.geom (p x attr) fi.2) else none)
        = some (if fi.1.interior then s else s.file fi.1.geom (p (pts m d fi.1.verts) (boundaryAttr m fi.1)) fi.2) := by
    intro fi hfi s
    have hf : fi.1 ∈ m.faces := by obtain ⟨a, b⟩ := fi; exact List.fst_mem_of_mem_zipIdx hfi
    have hattr : faceAttr m fi.1.bdr = some (boundaryAttr m fi.1) := by
      unfold faceAttr boundaryAttr
      by_cases h : 0 ≤ fi.1.bdr
      · rw [if_pos h, if_pos h]
        have hb := wf.bdr _ hf
        exact getD_getElem _ _ _ (by omega)
      · rw [if_neg h, if_neg h]
    have hgeom : isFaceGeom fi.1.geom = true := by
      have := wf.faceGeom _ hf
      split at this
      · rw [this]; rfl
      · rcases this with h | h <;> rw [h] <;> rfl
    by_cases hi : fi.1.interior = true
    · simp [hi]
    · rw [gather_eq m d wf.sdim _ (wf.faceVerts _ hf).1]
      simp [hi, hattr, hgeom]
  unfold ofBoundaryElements
  rw [foldlM_some _ _ _ hstep]
  refine ⟨_, rfl, ?_⟩
  rw [foldl_zipIdx m.faces (fun (s : Loop) f i => if f.interior then s else s.file f.geom (p (pts m d f.verts) (boundaryAttr m f)) i)
    ⟨.point, [], false, 0⟩]
  apply selects_of_run
  intro i hi s
  simp only [outerFaceGeomAt, getD_getElem m.faces i ⟨.point, [], false, 0⟩ hi, Option.bind_some, Option.any_some]
  by_cases hint : (m.faces.getD i ⟨.point, [], false, 0⟩).interior = true
  · rw [if_pos hint, if_pos hint]; rfl
  · rw [if_neg hint, if_neg hint]; rfl

/-- **C10, faces of a 3D mesh**: all faces, interior ones with attribute -1. -/
theorem C10_faces3 (m : Mesh R) (wf : WF m 3) (p : Pred R) :
    ∃ dom, ofFaces m 3 p = some dom ∧ dom.dim = 2 ∧ dom.type = .elements ∧
      Selects dom m.faces.length (faceGeomAt m)
        (fun i => (m.faces[i]?).any fun f => p (f.verts.map (position m 3)) (boundaryAttr m f)) := by
  unfold ofFaces
  simp only [wf.dim, show ¬ (3 : Nat) = 2 by decide, if_false]
  have hstep : ∀ i ∈ List.range m.faces.length, ∀ (s : Loop),
      (((m.faces[i]?).map Face.verts).bind fun vs => (gather 3 m.flat vs).bind fun x =>
        ((m.faces[i]?).bind fun f => faceAttr m f.bdr).map fun attr => facesStep p s i x attr)
      = some (facesStep p s i (pts m 3 (m.faces.getD i ⟨.point, [], false, 0⟩).verts)
          (boundaryAttr m (m.faces.getD i ⟨.point, [], false, 0⟩))) := by
    intro i hi s
    have hi' := List.mem_range.mp hi
    rw [getD_getElem m.faces i ⟨.point, [], false, 0⟩ hi']
    have hf : m.faces.getD i ⟨.point, [], false, 0⟩ ∈ m.faces := by
      rw [List.mem_iff_getElem?]; exact ⟨i, getD_getElem m.faces i _ hi'⟩
    generalize m.faces.getD i ⟨.point, [], false, 0⟩ = f at *
    have hattr : faceAttr m f.bdr = some (boundaryAttr m f) := by
      unfold faceAttr boundaryAttr
      by_cases h : 0 ≤ f.bdr
      · rw [if_pos h, if_pos h]
        have hb := wf.bdr _ hf
        exact getD_getElem _ _ _ (by omega)
      · rw [if_neg h, if_neg h]
    simp only [Option.map_some, Option.bind_some]
    rw [gather_eq m 3 wf.sdim _ (wf.faceVerts _ hf).1]
    simp [hattr]
  rw [foldlM_some _ _ _ hstep]
  refine ⟨_, rfl, ?_⟩
  apply selects_of_run
  intro i hi s
  have hf : m.faces.getD i ⟨.point, [], false, 0⟩ ∈ m.faces := by
    rw [List.mem_iff_getElem?]; exact ⟨i, getD_getElem m.faces i _ hi⟩
  simp only [faceGeomAt, getD_getElem m.faces i ⟨.point, [], false, 0⟩ hi, Option.map_some, Option.any_some]
  generalize m.faces.getD i ⟨.point, [], false, 0⟩ = f at *
  have hl : (pts m 3 f.verts).length = f.geom.numVerts := by simp [pts, (wf.faceVerts _ hf).2]
  have hg := wf.faceGeom _ hf
  simp only [show ¬ (3 : Nat) = 2 by decide, if_false] at hg
  unfold facesStep runItem
  rw [hl]
  rcases hg with h | h
  · rw [h]; rfl
  · rw [h]; rfl

/-- **C10, faces of a 2D mesh** are its elements. -/
theorem C10_faces2 (m : Mesh R) (wf : WF m 2) (hs : SupportedElems m 2) (p : Pred R) :
    ∃ dom, ofFaces m 2 p = some dom ∧ dom.dim = 2 ∧ dom.type = .elements ∧
      Selects dom m.elems.length (elemGeomAt m)
        (fun i => (m.elems[i]?).any fun e => p (e.verts.map (position m 2)) e.attr) := by
  unfold ofFaces
  simp only [wf.dim, if_true]
  have hstep : ∀ i ∈ List.range m.elems.length, ∀ (s : Loop),
      (((m.elems[i]?).map Elem.verts).bind fun vs => (gather 2 m.flat vs).bind fun x =>
        ((m.elems[i]?).map Elem.attr).map fun attr => facesStep p s i x attr)
      = some (facesStep p s i (pts m 2 (m.elems.getD i ⟨.point, [], 0⟩).verts) (m.elems.getD i ⟨.point, [], 0⟩).attr) := by
    intro i hi s
    have hi' := List.mem_range.mp hi
    rw [getD_getElem m.elems i ⟨.point, [], 0⟩ hi']
    have hf : m.elems.getD i ⟨.point, [], 0⟩ ∈ m.elems := by
      rw [List.mem_iff_getElem?]; exact ⟨i, getD_getElem m.elems i _ hi'⟩
    generalize m.elems.getD i ⟨.point, [], 0⟩ = f at *
    simp only [Option.map_some, Option.bind_some]
    rw [gather_eq m 2 wf.sdim _ (wf.elemVerts _ hf).1]
    rfl
  rw [foldlM_some _ _ _ hstep]
  refine ⟨_, rfl, ?_⟩
  apply selects_of_run
  intro i hi s
  have hf : m.elems.getD i ⟨.point, [], 0⟩ ∈ m.elems := by
    rw [List.mem_iff_getElem?]; exact ⟨i, getD_getElem m.elems i _ hi⟩
  simp only [elemGeomAt, getD_getElem m.elems i ⟨.point, [], 0⟩ hi, Option.map_some, Option.any_some]
  generalize m.elems.getD i ⟨.point, [], 0⟩ = f at *
  have hl : (pts m 2 f.verts).length = f.geom.numVerts := by simp [pts, (wf.elemVerts _ hf).2]
  have hg := hs _ hf
  simp only [if_true] at hg
  unfold facesStep runItem
  rw [hl]
  rcases hg with h | h
  · rw [h]; rfl
  · rw [h]; rfl

/-- Loop used for vertices and edges: entity numbers are pushed directly. -/
private theorem push_run (n : Nat) (g : Geom) (sel : Nat → Bool) (mfem : Bool) (d : Nat) :
    let dom := (List.range n).foldl (fun (dom : Domain) i => if sel i then
      { dom with ids := push dom.ids g i, mfemIds := if mfem then push dom.mfemIds g i else dom.mfemIds } else dom) (Domain.empty d)
    dom.dim = d ∧ dom.type = .elements ∧
    (∀ h, dom.ids h = if h = g then (List.range n).filter sel else []) ∧
    (∀ h, dom.mfemIds h = if h = g ∧ mfem = true then (List.range n).filter sel else []) := by
  induction n with
  | zero => simp [Domain.empty]
  | succ n ih =>
    simp only [List.range_succ, List.foldl_append, List.foldl_cons, List.foldl_nil, List.filter_append] at ih ⊢
    obtain ⟨h1, h2, h3, h4⟩ := ih
    generalize (List.range n).foldl (fun (dom : Domain) i => if sel i then
      { dom with ids := push dom.ids g i, mfemIds := if mfem then push dom.mfemIds g i else dom.mfemIds } else dom)
      (Domain.empty d) = dom at *
    by_cases hs : sel n = true
    · simp only [hs, if_true]
      refine ⟨h1, h2, fun h => ?_, fun h => ?_⟩
      · by_cases hg : h = g
        · simp [push, hg, h3, hs]
        · simp [push, hg, h3]
      · cases mfem
        · simpa using h4 h
        · by_cases hg : h = g
          · simp [push, hg, h4, hs]
          · simp [push, hg, h4]
    · rw [if_neg hs]
      refine ⟨h1, h2, fun h => ?_, fun h => ?_⟩
      · rw [h3]; simp [hs]
      · rw [h4]; simp [hs]

/-- **C10, vertices.** -/
theorem C10_vertices (m : Mesh R) (d : Nat) (wf : WF m d) (p : List R → Bool) :
    ∃ dom, ofVertices m d p = some dom ∧ dom.dim = 0 ∧
      dom.ids .point = (List.range m.nv).filter (fun v => p (position m d v)) := by
  have hstep : ∀ i ∈ List.range m.nv, ∀ (dom : Domain),
      ((mapOpt (fun j => m.flat.get? (j * m.nv + i)) (List.range d)).map fun x =>
        if p x then { dom with ids := push dom.ids .point i } else dom)
      = some (if p (position m d i) then { dom with
          ids := push dom.ids .point i,
          mfemIds := if false then push dom.mfemIds .point i else dom.mfemIds } else dom) := by
    intro i hi dom
    have hi' := List.mem_range.mp hi
    rw [mapOpt_some (fun j => m.flat.get? (j * m.nv + i)) (fun j => m.coord i j) (List.range d)
      (fun j hj => flat_get m d i j wf.sdim hi' (List.mem_range.mp hj))]
    rfl
  unfold ofVertices
  rw [foldlM_some _ _ _ hstep]
  have := push_run m.nv .point (fun i => p (position m d i)) false 0
  exact ⟨_, rfl, this.1, by rw [this.2.2.1]; simp⟩

/-- **C10, edges of a 3D mesh.** -/
theorem C10_edges3 (m : Mesh R) (wf : WF m 3) (p : List (List R) → Bool) :
    ∃ dom, ofEdges3 m p = some dom ∧ dom.dim = 1 ∧ dom.type = .elements ∧
      dom.ids .segment = (List.range m.edges.length).filter (fun i => p ((m.edges.getD i []).map (position m 3))) ∧
      dom.mfemIds .segment = dom.ids .segment := by
  have hstep : ∀ ei ∈ m.edges.zipIdx, ∀ (dom : Domain),
      ((gather 3 m.flat ei.1).map fun x =>
        if p x then { dom with ids := push dom.ids .segment ei.2, mfemIds := push dom.mfemIds .segment ei.2 } else dom)
      = some (if p (ei.1.map (position m 3)) then
          { dom with ids := push dom.ids .segment ei.2, mfemIds := push dom.mfemIds .segment ei.2 } else dom) := by
    intro ei hei dom
    have he : ei.1 ∈ m.edges := by obtain ⟨a, b⟩ := ei; exact List.fst_mem_of_mem_zipIdx hei
    rw [gather_eq m 3 wf.sdim _ (wf.edgeVerts _ he)]; rfl
  unfold ofEdges3
  rw [foldlM_some _ _ _ hstep]
  rw [foldl_zipIdx m.edges (fun (dom : Domain) e i => if p (e.map (position m 3)) then
    { dom with ids := push dom.ids .segment i, mfemIds := push dom.mfemIds .segment i } else dom) []]
  have := push_run m.edges.length .segment (fun i => p ((m.edges.getD i []).map (position m 3))) true 1
  simp only [if_true] at this
  refine ⟨_, rfl, this.1, this.2.1, ?_, ?_⟩
  · rw [this.2.2.1]; simp
  · rw [this.2.2.1, this.2.2.2]; simp

/-- The attribute the code passes for edge `i` in 2D. -/
private def edgeAttr (m : Mesh R) (f : Face) : Int := if 0 < f.bdr then m.bdrAttr.getD f.bdr.toNat 0 else -1

private theorem edges2_general (m : Mesh R) (wf : WF m 2) (p : Pred R) :
    ∃ dom, ofEdges2 m p = some dom ∧ dom.dim = 1 ∧ dom.type = .elements ∧
      dom.ids .segment = (List.range m.edges.length).filter (fun i =>
        p ((m.edges.getD i []).map (position m 2)) (edgeAttr m (m.faces.getD i ⟨.point, [], false, 0⟩))) ∧
      dom.mfemIds .segment = dom.ids .segment := by
  have hstep : ∀ ei ∈ m.edges.zipIdx, ∀ (dom : Domain),
      ((gather 2 m.flat ei.1).bind fun x => (m.faces[ei.2]?).bind fun f =>
        (if f.bdr > 0 then m.bdrAttr[f.bdr.toNat]? else some (-1)).map fun attr =>
        if p x attr then { dom with ids := push dom.ids .segment ei.2, mfemIds := push dom.mfemIds .segment ei.2 } else dom)
      = some (if p (ei.1.map (position m 2)) (edgeAttr m (m.faces.getD ei.2 ⟨.point, [], false, 0⟩)) then
          { dom with ids := push dom.ids .segment ei.2, mfemIds := push dom.mfemIds .segment ei.2 } else dom) := by
    intro ei hei dom
    have he : ei.1 ∈ m.edges := by obtain ⟨a, b⟩ := ei; exact List.fst_mem_of_mem_zipIdx hei
    have hi : ei.2 < m.faces.length := by
      rw [← wf.edges2 rfl]
      obtain ⟨a, b⟩ := ei
      exact (List.mem_zipIdx' hei).1
    rw [gather_eq m 2 wf.sdim _ (wf.edgeVerts _ he), getD_getElem m.faces ei.2 ⟨.point, [], false, 0⟩ hi]
    have hf : m.faces.getD ei.2 ⟨.point, [], false, 0⟩ ∈ m.faces := by
      rw [List.mem_iff_getElem?]; exact ⟨_, getD_getElem m.faces ei.2 _ hi⟩
    generalize m.faces.getD ei.2 ⟨.point, [], false, 0⟩ = f at *
    have : (if f.bdr > 0 then m.bdrAttr[f.bdr.toNat]? else some (-1)) = some (edgeAttr m f) := by
      unfold edgeAttr
      by_cases h : 0 < f.bdr
      · rw [if_pos h, if_pos h]
        have := wf.bdr _ hf
        exact getD_getElem _ _ _ (by omega)
      · rw [if_neg h, if_neg h]
    simp only [Option.bind_some, this, Option.map_some]
    rfl
  unfold ofEdges2
  rw [foldlM_some _ _ _ hstep]
  rw [foldl_zipIdx m.edges (fun (dom : Domain) e i => if p (e.map (position m 2))
      (edgeAttr m (m.faces.getD i ⟨.point, [], false, 0⟩)) then
    { dom with ids := push dom.ids .segment i, mfemIds := push dom.mfemIds .segment i } else dom) []]
  have := push_run m.edges.length .segment (fun i => p ((m.edges.getD i []).map (position m 2))
    (edgeAttr m (m.faces.getD i ⟨.point, [], false, 0⟩))) true 1
  simp only [if_true] at this
  refine ⟨_, rfl, this.1, this.2.1, ?_, ?_⟩
  · rw [this.2.2.1]; simp
  · rw [this.2.2.1, this.2.2.2]; simp

/-- **C10, edges of a 2D mesh**, if no edge is boundary element 0. -/
theorem C10_edges2_partial (m : Mesh R) (wf : WF m 2) (h0 : ∀ f ∈ m.faces, f.bdr ≠ 0) (p : Pred R) :
    ∃ dom, ofEdges2 m p = some dom ∧ dom.dim = 1 ∧ dom.type = .elements ∧
      dom.ids .segment = (List.range m.edges.length).filter (fun i =>
        (m.faces[i]?).any fun f => p ((m.edges.getD i []).map (position m 2)) (boundaryAttr m f)) ∧
      dom.mfemIds .segment = dom.ids .segment := by
  obtain ⟨dom, h1, h2, h3, h4, h5⟩ := edges2_general m wf p
  refine ⟨dom, h1, h2, h3, ?_, h5⟩
  rw [h4]
  apply List.filter_congr
  intro i hi
  have hi' : i < m.faces.length := by rw [← wf.edges2 rfl]; exact List.mem_range.mp hi
  rw [getD_getElem m.faces i ⟨.point, [], false, 0⟩ hi', Option.any_some]
  have hf : m.faces.getD i ⟨.point, [], false, 0⟩ ∈ m.faces := by
    rw [List.mem_iff_getElem?]; exact ⟨i, getD_getElem m.faces i _ hi'⟩
  generalize m.faces.getD i ⟨.point, [], false, 0⟩ = f at *
  have : edgeAttr m f = boundaryAttr m f := by
    unfold edgeAttr boundaryAttr
    have := h0 f hf
    by_cases h : 0 ≤ f.bdr
    · rw [if_pos h, if_pos (by omega)]
    · rw [if_neg h, if_neg (by omega)]
  rw [this]

/-- **The code violates C10 for 2D edges**: the edge that is boundary element 0 is never selected by its own attribute, in any mesh. -/
theorem C10_edges2_wrong (m : Mesh R) (wf : WF m 2) (i : Nat) (f : Face) (hf : m.faces[i]? = some f) (hb : f.bdr = 0)
    (hpos : boundaryAttr m f ≠ -1) :
    ∃ dom, ofEdges2 m (byAttr (boundaryAttr m f)) = some dom ∧ i ∉ dom.ids .segment := by
  obtain ⟨dom, h1, -, -, h4, -⟩ := edges2_general m wf (byAttr (boundaryAttr m f))
  refine ⟨dom, h1, ?_⟩
  rw [h4]
  simp only [List.mem_filter, not_and]
  intro _
  have : m.faces.getD i ⟨.point, [], false, 0⟩ = f := by simp [List.getD, hf]
  rw [this]
  have he : edgeAttr m f = -1 := by unfold edgeAttr; rw [hb]; rfl
  rw [he]
  simp [byAttr, Ne.symm hpos]

/-- **C10, the entire domain** has every element.  (Its `mfem` lists stay empty, see C11.) -/
theorem C10_entire_domain (m : Mesh R) (hs : ∀ e ∈ m.elems, isElemGeom e.geom = true) :
    ∃ dom, entireDomain m = some dom ∧ dom.dim = m.sdim ∧ dom.type = .elements ∧
      ∀ g, dom.ids g = List.range (m.elems.filter fun e => e.geom == g).length := by
  unfold entireDomain
  rw [foldlM_some _ (fun (s : Loop) (e : Elem) => s.fileAll e.geom) _ (by intro e he s; rw [if_pos (hs e he)])]
  refine ⟨_, rfl, ?_⟩
  have key : ∀ (l : List Elem),
      let s := l.foldl (fun (s : Loop) (e : Elem) => s.fileAll e.geom) ⟨fun _ => 0, Domain.empty m.sdim⟩
      s.dom.dim = m.sdim ∧ s.dom.type = .elements ∧ (∀ g, s.cnt g = (l.filter fun e => e.geom == g).length) ∧
      ∀ g, s.dom.ids g = List.range (l.filter fun e => e.geom == g).length := by
    intro l
    induction l using List.reverseRecOn with
    | nil => simp [Domain.empty]
    | append_singleton l e ih =>
      simp only [List.foldl_append, List.foldl_cons, List.foldl_nil] at ih ⊢
      obtain ⟨h1, h2, h3, h4⟩ := ih
      generalize l.foldl (fun (s : Loop) (e : Elem) => s.fileAll e.geom) ⟨fun _ => 0, Domain.empty m.sdim⟩ = s at *
      refine ⟨h1, h2, fun g => ?_, fun g => ?_⟩
      · simp only [Loop.fileAll, List.filter_append, List.length_append, h3]
        by_cases hg : g = e.geom
        · simp [hg]
        · simp [hg, Ne.symm hg]
      · simp only [Loop.fileAll, List.filter_append, List.length_append, push, h4, h3]
        by_cases hg : g = e.geom
        · simp [hg, List.range_succ]
        · simp [hg, Ne.symm hg]
  exact ⟨(key m.elems).1, (key m.elems).2.1, (key m.elems).2.2.2⟩

/-- **C10, the entire boundary** has every face that is not interior. -/
theorem C10_entire_boundary (m : Mesh R) (hs : ∀ f ∈ m.faces, isFaceGeom f.geom = true) :
    ∃ dom, entireBoundary m = some dom ∧ dom.dim = m.sdim - 1 ∧ dom.type = .boundaryElements ∧
      ∀ g, dom.ids g = List.range (m.faces.filter fun f => !f.interior && f.geom == g).length := by
  unfold entireBoundary
  rw [foldlM_some _ (fun (s : Loop) (f : Face) => if f.interior then s else s.fileAll f.geom) _ (by
    intro f hf s
    rw [if_pos (hs f hf)]; split <;> rfl)]
  refine ⟨_, rfl, ?_⟩
  have key : ∀ (l : List Face),
      let s := l.foldl (fun (s : Loop) (f : Face) => if f.interior then s else s.fileAll f.geom)
        ⟨fun _ => 0, Domain.empty (m.sdim - 1) .boundaryElements⟩
      s.dom.dim = m.sdim - 1 ∧ s.dom.type = .boundaryElements ∧
      (∀ g, s.cnt g = (l.filter fun f => !f.interior && f.geom == g).length) ∧
      ∀ g, s.dom.ids g = List.range (l.filter fun f => !f.interior && f.geom == g).length := by
    intro l
    induction l using List.reverseRecOn with
    | nil => simp [Domain.empty]
    | append_singleton l e ih =>
      simp only [List.foldl_append, List.foldl_cons, List.foldl_nil] at ih ⊢
      obtain ⟨h1, h2, h3, h4⟩ := ih
      generalize l.foldl (fun (s : Loop) (f : Face) => if f.interior then s else s.fileAll f.geom)
        ⟨fun _ => 0, Domain.empty (m.sdim - 1) .boundaryElements⟩ = s at *
      by_cases hint : e.interior = true
      · simp only [hint, if_true]
        refine ⟨h1, h2, fun g => ?_, fun g => ?_⟩
        · rw [h3]; simp [List.filter_append, hint]
        · rw [h4]; simp [List.filter_append, hint]
      · simp only [if_neg hint]
        refine ⟨h1, h2, fun g => ?_, fun g => ?_⟩
        · simp only [Loop.fileAll, List.filter_append, List.length_append, h3]
          by_cases hg : g = e.geom
          · simp [hg, hint]
          · simp [hg, Ne.symm hg]
        · simp only [Loop.fileAll, List.filter_append, List.length_append, push, h4, h3]
          by_cases hg : g = e.geom
          · simp [hg, hint, List.range_succ]
          · simp [hg, Ne.symm hg]
  exact ⟨(key m.faces).1, (key m.faces).2.1, (key m.faces).2.2.2⟩

/-! ### The hypotheses are met -/

/-- A triangle and a square side by side; six edges, five of them on the boundary. -/
def sample : Mesh Int where
  dim := 2
  sdim := 2
  nv := 5
  coord := fun v j => ([[0, 0], [1, 0], [1, 1], [0, 1], [2, 0]].getD v []).getD j 0
  edges := [[0, 1], [1, 2], [2, 3], [3, 0], [1, 4], [4, 2]]
  elems := [⟨.square, [0, 1, 2, 3], 1⟩, ⟨.triangle, [1, 4, 2], 2⟩]
  faces := [⟨.segment, [0, 1], false, 0⟩, ⟨.segment, [1, 2], true, -1⟩, ⟨.segment, [2, 3], false, 1⟩,
    ⟨.segment, [3, 0], false, 2⟩, ⟨.segment, [1, 4], false, 3⟩, ⟨.segment, [4, 2], false, 4⟩]
  bdrAttr := [7, 8, 8, 7, 9]

theorem sample_wf : WF sample 2 where
  dim := rfl
  sdim := rfl
  elemVerts := by decide
  faceVerts := by decide
  edgeVerts := by decide
  bdr := by decide
  faceGeom := by decide
  edges2 := by decide

example : SupportedElems sample 2 := by intro e he; revert e he; decide
example : sample.faces[0]? = some ⟨.segment, [0, 1], false, 0⟩ ∧ boundaryAttr sample ⟨.segment, [0, 1], false, 0⟩ = 7 := by decide
/-- On the sample, asking for attribute 7 returns edge 4 only, although edge 0 has attribute 7 as well. -/
example : (ofEdges2 sample (byAttr 7)).map (fun d => d.ids .segment) = some [4] := by decide
example : (ofBoundaryElements sample 2 (byAttr 7)).map (fun d => (d.ids .segment, d.mfemIds .segment)) = some ([0, 3], [0, 4]) := by decide

end Serac.C10
