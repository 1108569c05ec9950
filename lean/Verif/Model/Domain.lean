import Verif.Model.Restriction
/-!
# Domains

Model of `src/serac/numerics/functional/domain.{hpp,cpp}`.

`mfem::Mesh` is represented by the lists of its entities.  Points are lists of coordinates.  A predicate is any Boolean function of
the list of vertex positions and the attribute.  `int` indices are `Nat` (attributes and the face-to-boundary map are `Int`, with -1
for "none").  `SLIC_ERROR` and out-of-range reads end the construction: `none`.
-/

namespace Serac.Dom

/-- `mfem::Geometry::Type`. -/
inductive Geom | point | segment | triangle | square | tetrahedron | cube | prism | pyramid
  deriving DecidableEq, Repr

/-- Number of vertices of a geometry (mfem). -/
def Geom.numVerts : Geom → Nat
  | .point => 1 | .segment => 2 | .triangle => 3 | .square => 4 | .tetrahedron => 4 | .cube => 8 | .prism => 6 | .pyramid => 5

/-- One mesh element: `GetElementGeometry`, `GetElementVertices`, `GetAttribute`. -/
structure Elem where
  geom : Geom
  verts : List Nat
  attr : Int
  deriving DecidableEq

/-- One mesh face: `GetFaceGeometry`, `GetFaceVertices`, `GetFaceInformation(f).IsInterior()`, `GetFaceToBdrElMap()[f]`. -/
structure Face where
  geom : Geom
  verts : List Nat
  interior : Bool
  bdr : Int
  deriving DecidableEq

/-- `mfem::Mesh`, seen through the calls made in domain.cpp.  `coord v j` is component `j` of vertex `v`. -/
structure Mesh (R : Type) where
  dim : Nat
  sdim : Nat
  nv : Nat
  coord : Nat → Nat → R
  edges : List (List Nat)
  elems : List Elem
  faces : List Face
  bdrAttr : List Int

variable {R : Type}

/-- `mesh.GetVertices(vertices)`: all first components, then all second components, ... (comment at domain.cpp:58-59). -/
def Mesh.flat (m : Mesh R) : Vec R := ⟨m.nv * m.sdim, fun k => m.coord (k % m.nv) (k / m.nv)⟩

/-- `mapM` for `Option`, spelled out. -/
def mapOpt {α β : Type} (f : α → Option β) : List α → Option (List β)
  | [] => some []
  | a :: l => (f a).bind fun b => (mapOpt f l).map fun bs => b :: bs

/-- `gather` (domain.cpp:38-49). -/
def gather (d : Nat) (coordinates : Vec R) (ids : List Nat) : Option (List (List R)) :=
  mapOpt (fun v => mapOpt (fun j => coordinates.get? (j * (coordinates.size / d) + v)) (List.range d)) ids

/-- `Domain::Type` (domain.hpp:23-27). -/
inductive DType | elements | boundaryElements
  deriving DecidableEq, Repr

/-- `Domain` (domain.hpp:21-61) without the mesh reference.  The lists `vertex_ids_ ... hex_ids_` and `mfem_edge_ids_ ... mfem_hex_ids_`
are indexed by geometry. -/
structure Domain where
  dim : Nat
  type : DType
  ids : Geom → List Nat
  mfemIds : Geom → List Nat

/-- The constructor (domain.hpp:61): empty lists. -/
def Domain.empty (d : Nat) (t : DType := .elements) : Domain := ⟨d, t, fun _ => [], fun _ => []⟩

/-- `v.push_back(i)` on the list of one geometry. -/
def push (f : Geom → List Nat) (g : Geom) (i : Nat) : Geom → List Nat := fun h => if h = g then f h ++ [i] else f h

/-- Loop state: the domain under construction and the counters `edge_id`, `tri_id`, `quad_id`, `tet_id`, `hex_id`. -/
structure Loop where
  cnt : Geom → Nat
  dom : Domain

/-- `if (add) { output.X_ids_.push_back(x_id); output.mfem_X_ids_.push_back(i); } x_id++;` (domain.cpp:196-211, 259-288, 349-368). -/
def Loop.file (s : Loop) (g : Geom) (add : Bool) (i : Nat) : Loop :=
  { cnt := fun h => if h = g then s.cnt h + 1 else s.cnt h
    dom := if add then { s.dom with ids := push s.dom.ids g (s.cnt g), mfemIds := push s.dom.mfemIds g i } else s.dom }

/-- `output.X_ids_.push_back(x_id++)` (domain.cpp:475-491, 511-524). -/
def Loop.fileAll (s : Loop) (g : Geom) : Loop :=
  { cnt := fun h => if h = g then s.cnt h + 1 else s.cnt h
    dom := { s.dom with ids := push s.dom.ids g (s.cnt g) } }

abbrev Pred (R : Type) := List (List R) → Int → Bool

/-- `domain_of_vertices` (domain.cpp:51-77). -/
def ofVertices (m : Mesh R) (d : Nat) (p : List R → Bool) : Option Domain :=
  (List.range m.nv).foldlM (fun (dom : Domain) i =>
    (mapOpt (fun j => m.flat.get? (j * m.nv + i)) (List.range d)).map fun x =>
      if p x then { dom with ids := push dom.ids .point i } else dom) (Domain.empty 0)

/-- `domain_of_edges<2>` (domain.cpp:92-132): note the test `bdr_id > 0` at line 118.  In two dimensions MFEM's faces are the
edges, so `GetFaceToBdrElMap` has one entry per edge. -/
def ofEdges2 (m : Mesh R) (p : Pred R) : Option Domain :=
  (m.edges.zipIdx).foldlM (fun (dom : Domain) ei =>
    (gather 2 m.flat ei.1).bind fun x => (m.faces[ei.2]?).bind fun f =>
      (if f.bdr > 0 then m.bdrAttr[f.bdr.toNat]? else some (-1)).map fun attr =>
        if p x attr then
          { dom with ids := push dom.ids .segment ei.2, mfemIds := push dom.mfemIds .segment ei.2 }
        else dom) (Domain.empty 1)

/-- `domain_of_edges<3>` (domain.cpp:92-132). -/
def ofEdges3 (m : Mesh R) (p : List (List R) → Bool) : Option Domain :=
  (m.edges.zipIdx).foldlM (fun (dom : Domain) ei =>
    (gather 3 m.flat ei.1).map fun x =>
      if p x then { dom with ids := push dom.ids .segment ei.2, mfemIds := push dom.mfemIds .segment ei.2 } else dom)
    (Domain.empty 1)

/-- The boundary attribute of a face, `(bdr_id >= 0) ? mesh.GetBdrAttribute(bdr_id) : -1` (domain.cpp:191-192, 342-343). -/
def faceAttr (m : Mesh R) (bdr : Int) : Option Int := if bdr ≥ 0 then m.bdrAttr[bdr.toNat]? else some (-1)

/-- Loop body of `domain_of_faces` (domain.cpp:185-211), given the vertices and attribute: files under triangle or square by the number of
vertices, otherwise does nothing. -/
def facesStep (p : Pred R) (s : Loop) (i : Nat) (x : List (List R)) (attr : Int) : Loop :=
  if x.length = 3 then s.file .triangle (p x attr) i
  else if x.length = 4 then s.file .square (p x attr) i
  else s

/-- `domain_of_faces<d>` (domain.cpp:147-215).  For `d = 2` the "faces" are the mesh elements; the vertices come from the elements
iff `mesh.Dimension() == 2` (line 179). -/
def ofFaces (m : Mesh R) (d : Nat) (p : Pred R) : Option Domain :=
  let n := if d = 2 then m.elems.length else m.faces.length
  ((List.range n).foldlM (fun (s : Loop) i =>
    (if m.dim = 2 then (m.elems[i]?).map Elem.verts else (m.faces[i]?).map Face.verts).bind fun vs =>
    (gather d m.flat vs).bind fun x =>
    (if d = 2 then (m.elems[i]?).map Elem.attr else (m.faces[i]?).bind fun f => faceAttr m f.bdr).map fun attr =>
      facesStep p s i x attr)
    ⟨fun _ => 0, Domain.empty 2⟩).map Loop.dom

/-- The `switch (x.size())` of `domain_of_elems<d>` (domain.cpp:258-292). -/
def elemGeom (d n : Nat) : Option Geom :=
  if n = 3 then some .triangle
  else if n = 4 then (if d = 2 then some .square else some .tetrahedron)
  else if n = 8 then some .cube
  else none

/-- `domain_of_elems<d>` (domain.cpp:230-296), d = 2 or 3. -/
def ofElements (m : Mesh R) (d : Nat) (p : Pred R) : Option Domain :=
  ((m.elems.zipIdx).foldlM (fun (s : Loop) (ei : Elem × Nat) =>
    (gather d m.flat ei.1.verts).bind fun x =>
    (elemGeom d x.length).map fun g => s.file g (p x ei.1.attr) ei.2)
    ⟨fun _ => 0, Domain.empty m.sdim⟩).map Loop.dom

/-- Geometries accepted by the `switch (geom)` of `domain_of_boundary_elems` and `EntireBoundary`. -/
def isFaceGeom : Geom → Bool
  | .segment | .triangle | .square => true
  | _ => false

/-- `domain_of_boundary_elems<d>` (domain.cpp:311-376). -/
def ofBoundaryElements (m : Mesh R) (d : Nat) (p : Pred R) : Option Domain :=
  ((m.faces.zipIdx).foldlM (fun (s : Loop) (fi : Face × Nat) =>
    if fi.1.interior then some s else
    (gather d m.flat fi.1.verts).bind fun x =>
    (faceAttr m fi.1.bdr).bind fun attr =>
    if isFaceGeom fi.1.geom then some (s.file fi.1.geom (p x attr) fi.2) else none)
    ⟨fun _ => 0, Domain.empty (d - 1) .boundaryElements⟩).map Loop.dom

/-- Geometries accepted by the `switch (geom)` of `EntireDomain` (domain.cpp:475-491). -/
def isElemGeom : Geom → Bool
  | .triangle | .square | .tetrahedron | .cube => true
  | _ => false

/-- `EntireDomain` (domain.cpp:461-495). -/
def entireDomain (m : Mesh R) : Option Domain :=
  (m.elems.foldlM (fun (s : Loop) (e : Elem) => if isElemGeom e.geom then some (s.fileAll e.geom) else none)
    ⟨fun _ => 0, Domain.empty m.sdim⟩).map Loop.dom

/-- `EntireBoundary` (domain.cpp:497-528). -/
def entireBoundary (m : Mesh R) : Option Domain :=
  (m.faces.foldlM (fun (s : Loop) (f : Face) => if f.interior then some s else
      if isFaceGeom f.geom then some (s.fileAll f.geom) else none)
    ⟨fun _ => 0, Domain.empty (m.sdim - 1) .boundaryElements⟩).map Loop.dom

/-- `by_attr` (domain.hpp:153-157). -/
def byAttr (value : Int) : Pred R := fun _ attr => attr == value

/-! ### Set operations -/

/-- `std::set_union` on two ranges (the standard's merge). -/
def setUnion : List Nat → List Nat → List Nat
  | [], ys => ys
  | x :: xs, [] => x :: xs
  | x :: xs, y :: ys =>
    if x < y then x :: setUnion xs (y :: ys)
    else if y < x then y :: setUnion (x :: xs) ys
    else x :: setUnion xs ys
termination_by xs ys => xs.length + ys.length

/-- `std::set_intersection`. -/
def setInter : List Nat → List Nat → List Nat
  | [], _ => []
  | _ :: _, [] => []
  | x :: xs, y :: ys =>
    if x < y then setInter xs (y :: ys)
    else if y < x then setInter (x :: xs) ys
    else x :: setInter xs ys
termination_by xs ys => xs.length + ys.length

/-- `std::set_difference`. -/
def setDiff : List Nat → List Nat → List Nat
  | [], _ => []
  | x :: xs, [] => x :: xs
  | x :: xs, y :: ys =>
    if x < y then x :: setDiff xs (y :: ys)
    else if y < x then setDiff (x :: xs) ys
    else setDiff xs ys
termination_by xs ys => xs.length + ys.length

/-- The dimension under which `set_operation` treats a geometry's list (domain.cpp:556-572). -/
def geomDim : Geom → Option Nat
  | .point => some 0 | .segment => some 1 | .triangle => some 2 | .square => some 2
  | .tetrahedron => some 3 | .cube => some 3 | .prism => none | .pyramid => none

/-- `set_operation` on domains (domain.cpp:549-575).  The two `assert`s (same mesh, same dimension) are compiled out in release builds and are
not modelled; `Domain output{a.mesh_, a.dim_}` resets `type_` to `Elements` and leaves the `mfem_*` lists empty. -/
def setOperation (op : List Nat → List Nat → List Nat) (a b : Domain) : Domain :=
  { dim := a.dim, type := .elements,
    ids := fun g => if geomDim g = some a.dim then op (a.ids g) (b.ids g) else [],
    mfemIds := fun _ => [] }

/-- `operator|`, `operator&`, `operator-` (domain.cpp:577-579). -/
def union (a b : Domain) : Domain := setOperation setUnion a b
def inter (a b : Domain) : Domain := setOperation setInter a b
def diff (a b : Domain) : Domain := setOperation setDiff a b

/-! ### Dof list -/

/-- `std::set<int>::insert`: the iteration order of the set is increasing. -/
def insertSorted (x : Nat) : List Nat → List Nat
  | [] => [x]
  | y :: ys => if x < y then x :: y :: ys else if x = y then y :: ys else y :: insertSorted x ys

/-- `Domain::dof_list` (domain.cpp:388-454).  `elemDofs`, `faceDofs` stand for `GetElementDofs`, `GetFaceDofs`. -/
def Domain.dofList (dom : Domain) (elemDofs faceDofs : Nat → List Nat) : List Nat :=
  let getDofs := match dom.type with | .elements => elemDofs | .boundaryElements => faceDofs
  let ids := match dom.dim with
    | 1 => dom.mfemIds .segment
    | 2 => dom.mfemIds .triangle ++ dom.mfemIds .square
    | 3 => dom.mfemIds .tetrahedron ++ dom.mfemIds .cube
    | _ => []
  ids.foldl (fun acc i => (getDofs i).foldl (fun acc d => insertSorted d acc) acc) []

end Serac.Dom
