import Verif.Proofs.FaceTables
import Mathlib.Tactic.IntervalCases
/-!
# C04: face orientation tables

Specification.  A face has vertices `v0, v1, (v2, (v3))`; orientation code `k` names a vertex permutation (MFEM's
`Geometry::Constants<...>::Orient`, quoted in the comments of element_restriction.cpp:80 and 102-103).  A node with
lattice coordinates `(i, j)` measured in the reordered vertex frame sits at the lattice point `place k (i, j)` of the
original frame.  The table for orientation `k` must, at the number of that point, hold the number of `(i, j)`.
-/

namespace Serac.C04

/-- Vertices of the reference triangle and MFEM's six orientations. -/
def triVertex : Nat → Int × Int
  | 0 => (0, 0) | 1 => (1, 0) | _ => (0, 1)
def triOrient : Nat → Nat × Nat × Nat
  | 0 => (0, 1, 2) | 1 => (1, 0, 2) | 2 => (2, 0, 1) | 3 => (2, 1, 0) | 4 => (1, 2, 0) | _ => (0, 2, 1)

/-- Vertices of the reference square and MFEM's eight orientations. -/
def quadVertex : Nat → Int × Int
  | 0 => (0, 0) | 1 => (1, 0) | 2 => (1, 1) | _ => (0, 1)
def quadOrient : Nat → Nat × Nat × Nat × Nat
  | 0 => (0, 1, 2, 3) | 1 => (0, 3, 2, 1) | 2 => (1, 2, 3, 0) | 3 => (1, 0, 3, 2)
  | 4 => (2, 3, 0, 1) | 5 => (2, 1, 0, 3) | 6 => (3, 0, 1, 2) | _ => (3, 2, 1, 0)

/-- The point `p a + (b - a) i + (c - a) j`. -/
def affine (p : Int) (a b c : Int × Int) (ij : Int × Int) : Int × Int :=
  (p * a.1 + (b.1 - a.1) * ij.1 + (c.1 - a.1) * ij.2, p * a.2 + (b.2 - a.2) * ij.1 + (c.2 - a.2) * ij.2)

def triPlace (p : Int) (k : Nat) : Int × Int → Int × Int :=
  affine p (triVertex (triOrient k).1) (triVertex (triOrient k).2.1) (triVertex (triOrient k).2.2)

def quadPlace (p : Int) (k : Nat) : Int × Int → Int × Int :=
  affine p (quadVertex (quadOrient k).1) (quadVertex (quadOrient k).2.1) (quadVertex (quadOrient k).2.2.2)

/-- Lattice points of the face. -/
def InTri (p : Int) (q : Int × Int) : Prop := 0 ≤ q.1 ∧ 0 ≤ q.2 ∧ q.1 + q.2 ≤ p
def InQuad (p : Int) (q : Int × Int) : Prop := (0 ≤ q.1 ∧ q.1 ≤ p) ∧ (0 ≤ q.2 ∧ q.2 ≤ p)

/-- Which orientation undoes orientation `k`. -/
def triInv : Nat → Nat | 2 => 4 | 4 => 2 | k => k
def quadInv : Nat → Nat | 2 => 6 | 6 => 2 | k => k

private theorem triTarget_eq (p : Int) (k : Nat) (hk : k < 6) (q : Int × Int) :
    triTarget p k q.1 q.2 = triId p (triPlace p k q).1 (triPlace p k q).2 := by
  interval_cases k <;> simp only [triTarget, triPlace, affine, triOrient, triVertex] <;> congr 1 <;> ring

private theorem quadTarget_eq (p : Int) (k : Nat) (hk : k < 8) (q : Int × Int) :
    quadTarget p k q.1 q.2 = quadId p (quadPlace p k q).1 (quadPlace p k q).2 := by
  interval_cases k <;> simp only [quadTarget, quadPlace, affine, quadOrient, quadVertex] <;> congr 1 <;> ring

private theorem triPlace_mem (p : Int) (k : Nat) (hk : k < 6) (q : Int × Int) (h : InTri p q) :
    InTri p (triPlace p k q) := by
  obtain ⟨i, j⟩ := q
  simp only [InTri] at h ⊢
  interval_cases k <;> simp only [triPlace, affine, triOrient, triVertex] <;> omega

private theorem quadPlace_mem (p : Int) (k : Nat) (hk : k < 8) (q : Int × Int) (h : InQuad p q) :
    InQuad p (quadPlace p k q) := by
  obtain ⟨i, j⟩ := q
  simp only [InQuad] at h ⊢
  interval_cases k <;> simp only [quadPlace, affine, quadOrient, quadVertex] <;> omega

/-- `triInv k` undoes `k` on points. -/
theorem triPlace_inv (p : Int) (k : Nat) (hk : k < 6) (q : Int × Int) :
    triPlace p k (triPlace p (triInv k) q) = q := by
  obtain ⟨i, j⟩ := q
  interval_cases k <;> simp only [triPlace, affine, triOrient, triVertex, triInv, Prod.mk.injEq] <;>
    constructor <;> ring

theorem quadPlace_inv (p : Int) (k : Nat) (hk : k < 8) (q : Int × Int) :
    quadPlace p k (quadPlace p (quadInv k) q) = q := by
  obtain ⟨i, j⟩ := q
  interval_cases k <;> simp only [quadPlace, affine, quadOrient, quadVertex, quadInv, Prod.mk.injEq] <;>
    constructor <;> ring

private theorem triInv_lt {k : Nat} (hk : k < 6) : triInv k < 6 := by
  interval_cases k <;> decide
private theorem triInv_inv {k : Nat} (hk : k < 6) : triInv (triInv k) = k := by
  interval_cases k <;> decide
private theorem quadInv_lt {k : Nat} (hk : k < 8) : quadInv k < 8 := by
  interval_cases k <;> decide
private theorem quadInv_inv {k : Nat} (hk : k < 8) : quadInv (quadInv k) = k := by
  interval_cases k <;> decide

/-- **C04, triangles.**  No write leaves the table, and the table for orientation `k` holds, at the number of the node
placed at `(i,j)` of the reordered frame, the number of `(i, j)`; for every order and every orientation. -/
theorem C04_triangle (p : Int) (k : Nat) (hk : k < 6) :
    ∃ t, (facePermTri p k).val = some t ∧
      ∀ q, InTri p q → t (triId p (triPlace p k q).1 (triPlace p k q).2) = triId p q.1 q.2 := by
  obtain ⟨t, h1, h2⟩ := Row.writes_map (triLoop p) (fun q => triTarget p k q.1 q.2) (fun q => triId p q.1 q.2)
    ((p + 1) * (p + 2) / 2)
    (by
      intro q hq
      rw [triTarget_eq p k hk]
      have := triPlace_mem p k hk q (mem_triLoop.mp hq)
      exact triId_range this.1 this.2.1 this.2.2)
    (by
      intro q hq q' hq' e
      rw [triTarget_eq p k hk, triTarget_eq p k hk] at e
      have a := triPlace_mem p k hk q (mem_triLoop.mp hq)
      have b := triPlace_mem p k hk q' (mem_triLoop.mp hq')
      have c := triId_inj a.1 a.2.2 b.1 b.2.2 e
      have d : triPlace p k q = triPlace p k q' := Prod.ext c.1 c.2
      have e1 := triPlace_inv p (triInv k) (triInv_lt hk) q
      have e2 := triPlace_inv p (triInv k) (triInv_lt hk) q'
      rw [triInv_inv hk] at e1 e2
      rw [d, e2] at e1
      rw [e1])
  refine ⟨t, h1, fun q hq => ?_⟩
  have := h2 q (mem_triLoop.mpr hq)
  rwa [triTarget_eq p k hk] at this

/-- **C04, squares.** -/
theorem C04_square (p : Int) (k : Nat) (hk : k < 8) :
    ∃ t, (facePermQuad p k).val = some t ∧
      ∀ q, InQuad p q → t (quadId p (quadPlace p k q).1 (quadPlace p k q).2) = quadId p q.1 q.2 := by
  obtain ⟨t, h1, h2⟩ := Row.writes_map (quadLoop p) (fun q => quadTarget p k q.1 q.2) (fun q => quadId p q.1 q.2)
    ((p + 1) * (p + 1))
    (by
      intro q hq
      rw [quadTarget_eq p k hk]
      have := quadPlace_mem p k hk q (mem_quadLoop.mp hq)
      exact quadId_range this.1.1 this.1.2 this.2.1 this.2.2)
    (by
      intro q hq q' hq' e
      rw [quadTarget_eq p k hk, quadTarget_eq p k hk] at e
      have a := quadPlace_mem p k hk q (mem_quadLoop.mp hq)
      have b := quadPlace_mem p k hk q' (mem_quadLoop.mp hq')
      have c := quadId_inj a.1.1 a.1.2 b.1.1 b.1.2 e
      have d : quadPlace p k q = quadPlace p k q' := Prod.ext c.1 c.2
      have e1 := quadPlace_inv p (quadInv k) (quadInv_lt hk) q
      have e2 := quadPlace_inv p (quadInv k) (quadInv_lt hk) q'
      rw [quadInv_inv hk] at e1 e2
      rw [d, e2] at e1
      rw [e1])
  refine ⟨t, h1, fun q hq => ?_⟩
  have := h2 q (mem_quadLoop.mpr hq)
  rwa [quadTarget_eq p k hk] at this

/-- **C04, segments.**  Orientation 0 keeps the node order, orientation 1 reverses it. -/
theorem C04_segment (p : Int) :
    (∃ t, (facePermSeg p 0).val = some t ∧ ∀ i, 0 ≤ i → i ≤ p → t i = i) ∧
    (∃ t, (facePermSeg p 1).val = some t ∧ ∀ i, 0 ≤ i → i ≤ p → t i = p - i) := by
  constructor
  · obtain ⟨t, h1, h2⟩ := Row.writes_map (upTo p) (fun i => i) (fun i => if (0 : Nat) = 0 then i else p - i) (p + 1)
      (by intro a ha; have := mem_upTo.mp ha; omega) (by intro a _ b _ e; simpa using e)
    exact ⟨t, h1, fun i h0 hp => by simpa using h2 i (mem_upTo.mpr ⟨h0, hp⟩)⟩
  · obtain ⟨t, h1, h2⟩ := Row.writes_map (upTo p) (fun i => i) (fun i => if (1 : Nat) = 0 then i else p - i) (p + 1)
      (by intro a ha; have := mem_upTo.mp ha; omega) (by intro a _ b _ e; obtain rfl : a = b := e; rfl)
    exact ⟨t, h1, fun i h0 hp => by simpa using h2 i (mem_upTo.mpr ⟨h0, hp⟩)⟩

/-- Reading a triangle table at any node number. -/
private theorem tri_read (p : Int) (k : Nat) (hk : k < 6) (t : Int → Int) (ht : (facePermTri p k).val = some t)
    (q : Int × Int) (hq : InTri p q) :
    t (triId p q.1 q.2) = triId p (triPlace p (triInv k) q).1 (triPlace p (triInv k) q).2 := by
  obtain ⟨t', h1, h2⟩ := C04_triangle p k hk
  obtain rfl : t = t' := by rw [ht] at h1; exact Option.some.inj h1
  have := h2 (triPlace p (triInv k) q) (triPlace_mem p _ (triInv_lt hk) q hq)
  rwa [triPlace_inv p k hk q] at this

private theorem quad_read (p : Int) (k : Nat) (hk : k < 8) (t : Int → Int) (ht : (facePermQuad p k).val = some t)
    (q : Int × Int) (hq : InQuad p q) :
    t (quadId p q.1 q.2) = quadId p (quadPlace p (quadInv k) q).1 (quadPlace p (quadInv k) q).2 := by
  obtain ⟨t', h1, h2⟩ := C04_square p k hk
  obtain rfl : t = t' := by rw [ht] at h1; exact Option.some.inj h1
  have := h2 (quadPlace p (quadInv k) q) (quadPlace_mem p _ (quadInv_lt hk) q hq)
  rwa [quadPlace_inv p k hk q] at this

/-- **C04.**  Every triangle table permutes the node numbers; table 0 is the identity; and table `triInv k` undoes
table `k`, so a face seen from two elements can always be brought to one node order. -/
theorem C04_triangle_group (p : Int) (hp : 0 ≤ p) (k : Nat) (hk : k < 6) (t s : Int → Int)
    (ht : (facePermTri p k).val = some t) (hs : (facePermTri p (triInv k)).val = some s)
    (n : Int) (h0 : 0 ≤ n) (hn : n < (p + 1) * (p + 2) / 2) :
    (0 ≤ t n ∧ t n < (p + 1) * (p + 2) / 2) ∧ s (t n) = n ∧ t (s n) = n ∧ (k = 0 → t n = n) := by
  obtain ⟨x, y, hx, hy, hxy, rfl⟩ := triId_surj h0 hn hp
  have hq : InTri p (x, y) := ⟨hx, hy, hxy⟩
  have hq1 := triPlace_mem p _ (triInv_lt hk) _ hq
  have hq2 := triPlace_mem p _ hk _ hq
  have r1 := tri_read p k hk t ht (x, y) hq
  have r2 := tri_read p _ (triInv_lt hk) s hs (x, y) hq
  rw [triInv_inv hk] at r2
  have r3 := tri_read p _ (triInv_lt hk) s hs _ hq1
  have r4 := tri_read p k hk t ht _ hq2
  rw [triInv_inv hk, triPlace_inv p k hk] at r3
  have e := triPlace_inv p (triInv k) (triInv_lt hk) (x, y)
  rw [triInv_inv hk] at e
  rw [e] at r4
  simp only at r1 r2 r3 r4 ⊢
  refine ⟨?_, by rw [r1, r3], by rw [r2, r4], ?_⟩
  · rw [r1]; exact triId_range hq1.1 hq1.2.1 hq1.2.2
  · rintro rfl; rw [r1]; congr 1 <;> simp [triPlace, affine, triInv, triOrient, triVertex]

/-- **C04.**  The same for squares. -/
theorem C04_square_group (p : Int) (hp : 0 ≤ p) (k : Nat) (hk : k < 8) (t s : Int → Int)
    (ht : (facePermQuad p k).val = some t) (hs : (facePermQuad p (quadInv k)).val = some s)
    (n : Int) (h0 : 0 ≤ n) (hn : n < (p + 1) * (p + 1)) :
    (0 ≤ t n ∧ t n < (p + 1) * (p + 1)) ∧ s (t n) = n ∧ t (s n) = n ∧ (k = 0 → t n = n) := by
  obtain ⟨x, y, hx, hxp, hy, hyp, rfl⟩ := quadId_surj hp h0 hn
  have hq : InQuad p (x, y) := ⟨⟨hx, hxp⟩, hy, hyp⟩
  have hq1 := quadPlace_mem p _ (quadInv_lt hk) _ hq
  have hq2 := quadPlace_mem p _ hk _ hq
  have r1 := quad_read p k hk t ht (x, y) hq
  have r2 := quad_read p _ (quadInv_lt hk) s hs (x, y) hq
  rw [quadInv_inv hk] at r2
  have r3 := quad_read p _ (quadInv_lt hk) s hs _ hq1
  have r4 := quad_read p k hk t ht _ hq2
  rw [quadInv_inv hk, quadPlace_inv p k hk] at r3
  have e := quadPlace_inv p (quadInv k) (quadInv_lt hk) (x, y)
  rw [quadInv_inv hk] at e
  rw [e] at r4
  simp only at r1 r2 r3 r4 ⊢
  refine ⟨?_, by rw [r1, r3], by rw [r2, r4], ?_⟩
  · rw [r1]; exact quadId_range hq1.1.1 hq1.1.2 hq1.2.1 hq1.2.2
  · rintro rfl; rw [r1]; congr 1 <;> simp [quadPlace, affine, quadInv, quadOrient, quadVertex]

/-- Distinct orientations give distinct tables as soon as the vertices are distinct nodes (`p ≥ 1`): the table
records the image of every vertex. -/
theorem C04_triangle_vertices (p : Int) (k : Nat) (hk : k < 6) (t : Int → Int)
    (hp : 0 ≤ p) (ht : (facePermTri p k).val = some t) :
    let node := fun v : Nat => triId p (p * (triVertex v).1) (p * (triVertex v).2)
    t (node (triOrient k).1) = node 0 ∧ t (node (triOrient k).2.1) = node 1 ∧ t (node (triOrient k).2.2) = node 2 := by
  obtain ⟨t', h1, h2⟩ := C04_triangle p k hk
  obtain rfl : t = t' := by rw [ht] at h1; exact Option.some.inj h1
  have a := h2 (0, 0) ⟨by simp, by simp, by simpa using hp⟩
  have b := h2 (p, 0) ⟨by simpa using hp, by simp, by simp⟩
  have c := h2 (0, p) ⟨by simp, by simpa using hp, by simp⟩
  interval_cases k <;> simp [triPlace, affine, triOrient, triVertex] at a b c ⊢ <;> simp [a, b, c]

theorem C04_square_vertices (p : Int) (k : Nat) (hk : k < 8) (t : Int → Int)
    (hp : 0 ≤ p) (ht : (facePermQuad p k).val = some t) :
    let node := fun v : Nat => quadId p (p * (quadVertex v).1) (p * (quadVertex v).2)
    t (node (quadOrient k).1) = node 0 ∧ t (node (quadOrient k).2.1) = node 1 ∧
      t (node (quadOrient k).2.2.1) = node 2 ∧ t (node (quadOrient k).2.2.2) = node 3 := by
  obtain ⟨t', h1, h2⟩ := C04_square p k hk
  obtain rfl : t = t' := by rw [ht] at h1; exact Option.some.inj h1
  have a := h2 (0, 0) ⟨⟨by simp, hp⟩, by simp, hp⟩
  have b := h2 (p, 0) ⟨⟨hp, by simp⟩, by simp, hp⟩
  have c := h2 (p, p) ⟨⟨hp, by simp⟩, hp, by simp⟩
  have d := h2 (0, p) ⟨⟨by simp, hp⟩, hp, by simp⟩
  interval_cases k <;> simp [quadPlace, affine, quadOrient, quadVertex] at a b c d ⊢ <;> simp [a, b, c, d]

example : InTri 3 (1, 2) ∧ InQuad 3 (3, 0) ∧ triPlace 3 2 (1, 2) = (2, 0) := by unfold InTri InQuad; decide

end Serac.C04
