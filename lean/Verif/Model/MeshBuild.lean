import Mathlib.Analysis.SpecialFunctions.Complex.Arg
import Mathlib.Data.Fin.VecNotation
import Mathlib.Algebra.BigOperators.Fin
import Verif.Model.Ring
/-!
# Disks, balls, cylinders and quarter cylinders

`/repo/src/serac/mesh/mesh_utils.cpp` 45-238 (`squish`, `buildDiskMesh`, `buildBallMesh`, `buildCylinderMesh`) and 357-393
(`build_hollow_quarter_cylinder`), with exact arithmetic on coordinates.

mfem's `UniformRefinement` is modelled from its documentation.  A triangle is replaced by the three corner triangles and the triangle of the edge midpoints, each with
the orientation of its parent.  A tetrahedron is replaced by eight tetrahedra whose vertices are vertices and edge midpoints of the parent; which of the three
diagonals of the inner octahedron is used is left open (a parameter).  Meshes are lists of elements given by the coordinates of their vertices: the numbering of
vertices, attributes and the marking of edges by `FinalizeTriMesh`/`FinalizeTetMesh` (which may rotate the vertices of an element) are not modelled.
-/

noncomputable section
namespace Serac.MeshBuild
open Real

/-- A point of `d`-dimensional space. -/
abbrev Pt (d : ℕ) := Fin d → ℝ

/-- `mfem::Vector::Norml1`. -/
def l1 {d : ℕ} (p : Pt d) : ℝ := ∑ i, |p i|

/-- `mfem::Vector::Norml2`. -/
def l2 {d : ℕ} (p : Pt d) : ℝ := sqrt (∑ i, p i ^ 2)

open Classical in
/-- Lines 50-72: what `squish` does with one vertex (`1.0e-6` is line 65). -/
def squish {d : ℕ} (p : Pt d) : Pt d := fun i => p i * (if l2 p < 1 / 10 ^ 6 then 0 else l1 p / l2 p)

/-- Midpoint of an edge. -/
def mid {d : ℕ} (p q : Pt d) : Pt d := fun i => (p i + q i) / 2

/-- A triangle by its corners. -/
structure Tri (d : ℕ) where
  p0 : Pt d
  p1 : Pt d
  p2 : Pt d

/-- A segment by its ends. -/
structure Seg (d : ℕ) where
  p0 : Pt d
  p1 : Pt d

/-- A tetrahedron by its corners. -/
structure Tet where
  p0 : Pt 3
  p1 : Pt 3
  p2 : Pt 3
  p3 : Pt 3

def Tri.verts {d : ℕ} (t : Tri d) : List (Pt d) := [t.p0, t.p1, t.p2]
def Seg.verts {d : ℕ} (t : Seg d) : List (Pt d) := [t.p0, t.p1]
def Tet.verts (t : Tet) : List (Pt 3) := [t.p0, t.p1, t.p2, t.p3]

def Tri.map {d : ℕ} (f : Pt d → Pt d) (t : Tri d) : Tri d := ⟨f t.p0, f t.p1, f t.p2⟩
def Seg.map {d : ℕ} (f : Pt d → Pt d) (t : Seg d) : Seg d := ⟨f t.p0, f t.p1⟩
def Tet.map (f : Pt 3 → Pt 3) (t : Tet) : Tet := ⟨f t.p0, f t.p1, f t.p2, f t.p3⟩

/-- One triangle under `UniformRefinement`. -/
def refineTri {d : ℕ} (t : Tri d) : List (Tri d) :=
  let e0 := mid t.p0 t.p1
  let e1 := mid t.p1 t.p2
  let e2 := mid t.p2 t.p0
  [⟨t.p0, e0, e2⟩, ⟨e1, e2, e0⟩, ⟨e0, t.p1, e1⟩, ⟨e2, e1, t.p2⟩]

/-- One boundary segment under `UniformRefinement`. -/
def refineSeg {d : ℕ} (s : Seg d) : List (Seg d) := [⟨s.p0, mid s.p0 s.p1⟩, ⟨mid s.p0 s.p1, s.p1⟩]

/-- A mesh: elements and boundary elements. -/
structure Mesh (E B : Type) where
  elems : List E
  bdr : List B

/-- `UniformRefinement` for given subdivisions of elements and boundary elements. -/
def uniform {E B : Type} (fe : E → List E) (fb : B → List B) (m : Mesh E B) : Mesh E B := ⟨m.elems.flatMap fe, m.bdr.flatMap fb⟩

/-- `while (c(s)) s = f(s);` started in the first state may stop in the second. -/
inductive Loop {σ : Type} (c : σ → Prop) (f : σ → σ) : σ → σ → Prop
  | done {s : σ} : ¬ c s → Loop c f s s
  | step {s t : σ} : c s → Loop c f (f s) t → Loop c f s t

/-- Line 81 and the vertex numbers of line 82. -/
def diskVertex : Fin 5 → Pt 2 := ![![0, 0], ![1, 0], ![0, 1], ![-1, 0], ![0, -1]]

/-- Line 82. -/
def diskTriangles : List (Fin 5 × Fin 5 × Fin 5) := [(1, 2, 0), (2, 3, 0), (3, 4, 0), (4, 1, 0)]

/-- Line 83. -/
def diskSegments : List (Fin 5 × Fin 5) := [(1, 2), (2, 3), (3, 4), (4, 1)]

/-- Lines 85-96: the coarse disk. -/
def coarseDisk : Mesh (Tri 2) (Seg 2) where
  elems := diskTriangles.map fun t => ⟨diskVertex t.1, diskVertex t.2.1, diskVertex t.2.2⟩
  bdr := diskSegments.map fun t => ⟨diskVertex t.1, diskVertex t.2⟩

/-- Line 98: the condition of the loop, for `int approx_number_of_elements`. -/
def diskCond (approx : ℤ) (m : Mesh (Tri 2) (Seg 2)) : Prop := (m.elems.length : ℝ) < 0.5 * (approx : ℝ)

/-- Lines 74-105: `buildDiskMesh` may return this mesh. -/
def DiskMesh (approx : ℤ) (m : Mesh (Tri 2) (Seg 2)) : Prop :=
  ∃ r, Loop (diskCond approx) (uniform refineTri refineSeg) coarseDisk r ∧ m = ⟨r.elems.map (Tri.map squish), r.bdr.map (Seg.map squish)⟩

/-- Lines 114-115. -/
def ballVertex : Fin 7 → Pt 3 := ![![0, 0, 0], ![-1, 0, 0], ![0, 1, 0], ![0, 0, -1], ![0, 0, 1], ![0, -1, 0], ![1, 0, 0]]

/-- Lines 116-117: the boundary triangles. -/
def ballTriangles : List (Fin 7 × Fin 7 × Fin 7) := [(4, 5, 6), (4, 6, 2), (4, 2, 1), (4, 1, 5), (5, 1, 3), (5, 3, 6), (3, 1, 2), (6, 3, 2)]

/-- Lines 118-119. -/
def ballTetrahedra : List (Fin 7 × Fin 7 × Fin 7 × Fin 7) :=
  [(0, 4, 5, 6), (0, 4, 6, 2), (0, 4, 2, 1), (0, 4, 1, 5), (0, 5, 1, 3), (0, 5, 3, 6), (0, 3, 1, 2), (0, 6, 3, 2)]

/-- Lines 121-133: the coarse ball. -/
def coarseBall : Mesh Tet (Tri 3) where
  elems := ballTetrahedra.map fun t => ⟨ballVertex t.1, ballVertex t.2.1, ballVertex t.2.2.1, ballVertex t.2.2.2⟩
  bdr := ballTriangles.map fun t => ⟨ballVertex t.1, ballVertex t.2.1, ballVertex t.2.2⟩

/-- Line 135: the condition of the loop. -/
def ballCond (approx : ℤ) (m : Mesh Tet (Tri 3)) : Prop := (m.elems.length : ℝ) < 0.25 * (approx : ℝ)

/-- What is assumed of mfem's subdivision of a tetrahedron. -/
def Subdivides (split : Tet → List Tet) : Prop :=
  ∀ t, (split t).length = 8 ∧ ∀ c ∈ split t, ∀ v ∈ c.verts, v ∈ t.verts ∨ ∃ p ∈ t.verts, ∃ q ∈ t.verts, v = mid p q

/-- The inner octahedron of a refined tetrahedron (corners: midpoints of the edges 01, 02, 03, 12, 13, 23) is cut along one of its diagonals (mfem's `UniformRefinement3D`,
from its documentation). -/
def octahedron (rt : Fin 3) (e0 e1 e2 e3 e4 e5 : Pt 3) : List Tet :=
  match rt with
  | 0 => [⟨e0, e5, e1, e2⟩, ⟨e0, e5, e2, e4⟩, ⟨e0, e5, e4, e3⟩, ⟨e0, e5, e3, e1⟩]
  | 1 => [⟨e1, e0, e4, e2⟩, ⟨e1, e2, e4, e5⟩, ⟨e1, e5, e4, e3⟩, ⟨e1, e3, e4, e0⟩]
  | 2 => [⟨e2, e0, e1, e3⟩, ⟨e2, e1, e5, e3⟩, ⟨e2, e5, e4, e3⟩, ⟨e2, e4, e0, e3⟩]

/-- One tetrahedron under `UniformRefinement`, for a given diagonal. -/
def tetSplit (rt : Fin 3) (t : Tet) : List Tet :=
  let e0 := mid t.p0 t.p1
  let e1 := mid t.p0 t.p2
  let e2 := mid t.p0 t.p3
  let e3 := mid t.p1 t.p2
  let e4 := mid t.p1 t.p3
  let e5 := mid t.p2 t.p3
  [⟨t.p0, e0, e1, e2⟩, ⟨e0, t.p1, e3, e4⟩, ⟨e1, e3, t.p2, e5⟩, ⟨e2, e4, e5, t.p3⟩] ++ octahedron rt e0 e1 e2 e3 e4 e5

/-- Lines 107-142: `buildBallMesh` may return this mesh. -/
def BallMesh (split : Tet → List Tet) (approx : ℤ) (m : Mesh Tet (Tri 3)) : Prop :=
  ∃ r, Loop (ballCond approx) (uniform split refineTri) coarseBall r ∧ m = ⟨r.elems.map (Tet.map squish), r.bdr.map (Tri.map squish)⟩

/-! ### Cylinders -/

/-- Lines 179-186: vertices 9-16, the corners of the octagon.  The literals `0.7071067811865475` and `0.707106781186548` are both read as half the square root
of two (they differ from it by less than `3e-16`). -/
def octagon (i : ℕ) : Ring.Pt := (cos (π / 4 * i), sin (π / 4 * i))

/-- Lines 192-193: boundary segment `i`. -/
def octagonEdge (i : ℕ) : Ring.Pt × Ring.Pt := (octagon i, octagon ((i + 1) % 8))

/-- A boundary segment under `UniformRefinement`. -/
def halve (s : Ring.Pt × Ring.Pt) : List (Ring.Pt × Ring.Pt) := [(s.1, Ring.mid s.1 s.2), (Ring.mid s.1 s.2, s.2)]

/-- Lines 207-209: repeated refinement of the boundary. -/
def halveAll : ℕ → List (Ring.Pt × Ring.Pt) → List (Ring.Pt × Ring.Pt)
  | 0, l => l
  | k + 1, l => halveAll k (l.flatMap halve)

/-- Lines 225-228: the deformation of a vertex of the cross section. -/
def stretch (radius : ℝ) (p : Ring.Pt) : Ring.Pt :=
  let theta := Complex.arg ⟨p.1, p.2⟩
  let phi := Ring.fmod (theta + π) (π / 4)
  let factor := radius * (cos phi + (-1 + sqrt 2) * sin phi)
  (p.1 * factor, p.2 * factor)

/-- The boundary segments of the cross section of `buildCylinderMesh`. -/
def cylinderBoundary (refinement : ℕ) (radius : ℝ) : List (Ring.Pt × Ring.Pt) :=
  (halveAll refinement ((List.range 8).map octagonEdge)).map fun s => (stretch radius s.1, stretch radius s.2)

/-- Lines 377-382: the deformation of a vertex of the cube in `build_hollow_quarter_cylinder`. -/
def quarter (inner outer height : ℝ) (v : Pt 3) : Pt 3 :=
  let r := inner + (outer - inner) * v 0
  let theta := v 1 * (π / 2)
  ![r * cos theta, r * sin theta, v 2 * height]

/-- Vertex `(i, j, k)` of the Cartesian mesh of the unit cube (`MakeCartesian3D`, line 365) after the deformation. -/
def quarterVertex (nr na nv : ℕ) (inner outer height : ℝ) (i j k : ℕ) : Pt 3 :=
  quarter inner outer height ![(i : ℝ) / nr, (j : ℝ) / na, (k : ℝ) / nv]

end Serac.MeshBuild
