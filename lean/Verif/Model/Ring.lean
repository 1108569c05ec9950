import Mathlib.Analysis.SpecialFunctions.Complex.Arg
/-!
# Ring meshes

`/repo/src/serac/mesh/mesh_utils.cpp` 241-342 (`buildRing`), with exact arithmetic.

mfem's `UniformRefinement` of quadrilaterals is modelled from its documentation: new vertices at edge midpoints and element centres, four children per
element in the vertex order used below.  The numbering of vertices of refined meshes is not modelled; the numbering of the coarse mesh is.
-/

noncomputable section
namespace Serac.Ring
open Real

abbrev Pt := ℝ × ℝ

/-- Line 251: the total angle is limited to `2π`. -/
def limited (total : ℝ) : ℝ := min total (2 * π)

/-- Line 252: the angle of one sector. -/
def sectorAngle (total : ℝ) (sectors : ℕ) : ℝ := limited total / sectors

open Classical in
/-- Line 255: number of vertices on each circle. -/
def numRing (total : ℝ) (sectors : ℕ) : ℕ := if limited total = 2 * π then sectors else sectors + 1

/-- Lines 263-271: coordinates of vertex `v`. -/
def vertex (r R angle : ℝ) (N v : ℕ) : Pt :=
  if v < N then (r * cos (angle * v), r * sin (angle * v)) else (R * cos (angle * (v - N : ℕ)), R * sin (angle * (v - N : ℕ)))

/-- Lines 277-280: the vertices of element `i`. -/
def elem (N i : ℕ) : List ℕ := [i, N + i, N + (i + 1) % N, (i + 1) % N]

/-- Lines 282-288: the boundary elements, inner ones first. -/
def boundary (N sectors : ℕ) : List (ℕ × ℕ) :=
  (List.range sectors).map (fun i => ((i + 1) % N, i)) ++ (List.range sectors).map (fun i => (N + i, N + (i + 1) % N))

/-- A quadrilateral by its corners. -/
structure Quad where
  p0 : Pt
  p1 : Pt
  p2 : Pt
  p3 : Pt

def mid (a b : Pt) : Pt := ((a.1 + b.1) / 2, (a.2 + b.2) / 2)

def centre (q : Quad) : Pt := ((q.p0.1 + q.p1.1 + q.p2.1 + q.p3.1) / 4, (q.p0.2 + q.p1.2 + q.p2.2 + q.p3.2) / 4)

/-- One quadrilateral under `mfem::Mesh::UniformRefinement`. -/
def refineQuad (q : Quad) : List Quad :=
  let e0 := mid q.p0 q.p1
  let e1 := mid q.p1 q.p2
  let e2 := mid q.p2 q.p3
  let e3 := mid q.p3 q.p0
  let c := centre q
  [⟨q.p0, e0, c, e3⟩, ⟨e0, q.p1, e1, c⟩, ⟨c, e1, q.p2, e2⟩, ⟨e3, c, e2, q.p3⟩]

/-- Line 305-307: repeated refinement. -/
def refine : ℕ → List Quad → List Quad
  | 0, qs => qs
  | k + 1, qs => refine k (qs.flatMap refineQuad)

/-- `fmod` of a non-negative number by a positive one. -/
def fmod (x a : ℝ) : ℝ := x - a * ⌊x / a⌋

/-- Lines 318-331: the deformation of a vertex.  `atan2(y, x)` is the argument of `x + i y`. -/
def stretch (angle : ℝ) (p : Pt) : Pt :=
  let theta := Complex.arg ⟨p.1, p.2⟩
  let phi := fmod (theta + 2 * π) angle
  let factor := cos |1 / 2 * angle - phi| / cos (1 / 2 * angle)
  (p.1 * factor, p.2 * factor)

/-- The coarse element `i` by its corners. -/
def coarse (r R angle : ℝ) (N i : ℕ) : Quad :=
  ⟨vertex r R angle N i, vertex r R angle N (N + i), vertex r R angle N (N + (i + 1) % N), vertex r R angle N ((i + 1) % N)⟩

/-- `buildRing`, as a list of quadrilaterals. -/
def buildRing (refinement : ℕ) (r R total : ℝ) (sectors : ℕ) : List Quad :=
  let angle := sectorAngle total sectors
  let N := numRing total sectors
  (refine refinement ((List.range sectors).map (coarse r R angle N))).map fun q =>
    ⟨stretch angle q.p0, stretch angle q.p1, stretch angle q.p2, stretch angle q.p3⟩

end Serac.Ring
