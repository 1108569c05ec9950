/-!
# Node numbering, face permutations and local face tables

Model of `face_permutations` and `geom_local_face_dofs` in
`src/serac/numerics/functional/element_restriction.cpp` (lines 67-214).
C++ `int` is modelled by `Int` (no overflow), integer division by `Int.tdiv` (truncation, as in C++).
-/

namespace Serac

/-- `tri_id` (element_restriction.cpp:85 and 138). -/
def triId (p x y : Int) : Int := x + ((3 + 2 * p - y) * y).tdiv 2

/-- `quad_id` (element_restriction.cpp:108 and 152). -/
def quadId (p x y : Int) : Int := ((p + 1) * y) + x

/-- `tet_id` (element_restriction.cpp:148-150). -/
def tetId (p x y z : Int) : Int :=
  x + (z * (11 + p * (12 + 3 * p) - 6 * y + z * (z - 6 - 3 * p)) - 3 * y * (y - 2 * p - 3)).tdiv 6

/-- `hex_id` (element_restriction.cpp:154). -/
def hexId (p x y z : Int) : Int := (p + 1) * ((p + 1) * z + y) + x

/-- `for (int i = 0; i <= n; i++)`: the values taken by the loop variable. -/
def upTo (n : Int) : List Int := (List.range (n + 1).toNat).map Int.ofNat

/-- One row of an `Array2D<int>`: a map from column to value, zero-initialised by the constructor
(element_restriction.hpp:117 `values(m * n, 0)`).  `none` marks that a write fell outside `0 .. width-1`. -/
structure Row where
  width : Int
  val : Option (Int → Int)

namespace Row
/-- A zero-initialised row of the given width. -/
def zero (w : Int) : Row := ⟨w, some fun _ => 0⟩

/-- `output(k, c) = v`; a column outside the row is an out-of-range write (undefined behaviour), recorded as `none`. -/
def write (r : Row) (c v : Int) : Row :=
  { r with val := r.val.bind fun f =>
      if 0 ≤ c ∧ c < r.width then some (fun x => if x = c then v else f x) else none }

/-- Perform a list of writes in order. -/
def writes (r : Row) (l : List (Int × Int)) : Row := l.foldl (fun r cv => r.write cv.1 cv.2) r
end Row

/-- The face geometries of `face_permutations`. -/
inductive FaceGeom | segment | triangle | square
  deriving DecidableEq, Repr

/-- Loop nest `for j in 0..p, for i in 0..p-j` (element_restriction.cpp:86-87). -/
def triLoop (p : Int) : List (Int × Int) :=
  (upTo p).flatMap fun j => (upTo (p - j)).map fun i => (i, j)

/-- Loop nest `for j in 0..p, for i in 0..p` (element_restriction.cpp:109-110). -/
def quadLoop (p : Int) : List (Int × Int) :=
  (upTo p).flatMap fun j => (upTo p).map fun i => (i, j)

/-- The column written by the k-th assignment in the triangle loop body (element_restriction.cpp:89-94). -/
def triTarget (p : Int) (k : Nat) (i j : Int) : Int :=
  match k with
  | 0 => triId p i j
  | 1 => triId p (p - i - j) j
  | 2 => triId p j (p - i - j)
  | 3 => triId p i (p - i - j)
  | 4 => triId p (p - i - j) i
  | _ => triId p j i

/-- The column written by the k-th assignment in the square loop body (element_restriction.cpp:112-119). -/
def quadTarget (p : Int) (k : Nat) (i j : Int) : Int :=
  match k with
  | 0 => quadId p i j
  | 1 => quadId p j i
  | 2 => quadId p (p - j) i
  | 3 => quadId p (p - i) j
  | 4 => quadId p (p - i) (p - j)
  | 5 => quadId p (p - j) (p - i)
  | 6 => quadId p j (p - i)
  | _ => quadId p i (p - j)

/-- Row `k` of `face_permutations(TRIANGLE, p)` (element_restriction.cpp:78-98).  The rows are independent, so the
loop is replayed once per row. -/
def facePermTri (p : Int) (k : Nat) : Row :=
  (Row.zero ((p + 1) * (p + 2) / 2)).writes
    ((triLoop p).map fun ij => (triTarget p k ij.1 ij.2, triId p ij.1 ij.2))

/-- Row `k` of `face_permutations(SQUARE, p)` (element_restriction.cpp:100-123). -/
def facePermQuad (p : Int) (k : Nat) : Row :=
  (Row.zero ((p + 1) * (p + 1))).writes
    ((quadLoop p).map fun ij => (quadTarget p k ij.1 ij.2, quadId p ij.1 ij.2))

/-- Row `k` of `face_permutations(SEGMENT, p)` (element_restriction.cpp:69-76). -/
def facePermSeg (p : Int) (k : Nat) : Row :=
  (Row.zero (p + 1)).writes ((upTo p).map fun i => (i, if k = 0 then i else p - i))

/-- Row `f` of `tris` (element_restriction.cpp:158-163). -/
def triFaceRow (p : Int) (f : Nat) : Row :=
  (Row.zero (p + 1)).writes ((upTo p).map fun k => (k,
    match f with
    | 0 => triId p k 0
    | 1 => triId p (p - k) k
    | _ => triId p 0 (p - k)))

/-- Row `f` of `quads` (element_restriction.cpp:166-172). -/
def quadFaceRow (p : Int) (f : Nat) : Row :=
  (Row.zero (p + 1)).writes ((upTo p).map fun k => (k,
    match f with
    | 0 => quadId p k 0
    | 1 => quadId p p k
    | 2 => quadId p (p - k) p
    | _ => quadId p 0 (p - k)))

/-- Row `f` of `tets` (element_restriction.cpp:180-189; the outer loop variable is `k`, the inner one `j`). -/
def tetFaceRow (p : Int) (f : Nat) : Row :=
  (Row.zero ((p + 1) * (p + 2) / 2)).writes ((triLoop p).map fun jk => (triId p jk.1 jk.2,
    match f with
    | 0 => tetId p (p - jk.1 - jk.2) jk.1 jk.2
    | 1 => tetId p 0 jk.2 jk.1
    | 2 => tetId p jk.1 0 jk.2
    | _ => tetId p jk.2 jk.1 0))

/-- Row `f` of `hexes` (element_restriction.cpp:199-210). -/
def hexFaceRow (p : Int) (f : Nat) : Row :=
  (Row.zero ((p + 1) * (p + 1))).writes ((quadLoop p).map fun jk => (quadId p jk.1 jk.2,
    match f with
    | 0 => hexId p jk.1 (p - jk.2) 0
    | 1 => hexId p jk.1 0 jk.2
    | 2 => hexId p p jk.1 jk.2
    | 3 => hexId p (p - jk.1) p jk.2
    | 4 => hexId p 0 (p - jk.1) jk.2
    | _ => hexId p jk.1 jk.2 p))

end Serac
