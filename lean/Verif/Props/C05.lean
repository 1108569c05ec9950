import Verif.Proofs.FaceTables
import Mathlib.Tactic.IntervalCases
/-!
# C05: local face node tables select exactly the nodes of that face

Specification.  The local faces of an element are given by vertex lists (MFEM's conventions, quoted in the comments of
element_restriction.cpp:175-176 and 192-195).  A lattice point lies on a face when it satisfies the face's linear
equation.  The table row of a face must list, without repetition, exactly the node numbers of the lattice points on
that face; entry number `(j,k)` must be the point `p a + (b - a) j + (c - a) k` in the frame of the face's vertices.
-/

namespace Serac.C05

abbrev Pt3 := Int × Int × Int

def InTri (p : Int) (q : Int × Int) : Prop := 0 ≤ q.1 ∧ 0 ≤ q.2 ∧ q.1 + q.2 ≤ p
def InQuad (p : Int) (q : Int × Int) : Prop := (0 ≤ q.1 ∧ q.1 ≤ p) ∧ (0 ≤ q.2 ∧ q.2 ≤ p)
def InTet (p : Int) (q : Pt3) : Prop := 0 ≤ q.1 ∧ 0 ≤ q.2.1 ∧ 0 ≤ q.2.2 ∧ q.1 + q.2.1 + q.2.2 ≤ p
def InHex (p : Int) (q : Pt3) : Prop := (0 ≤ q.1 ∧ q.1 ≤ p) ∧ (0 ≤ q.2.1 ∧ q.2.1 ≤ p) ∧ (0 ≤ q.2.2 ∧ q.2.2 ≤ p)

/-- `p a + (b - a) j + (c - a) k`. -/
def affine3 (p : Int) (a b c : Pt3) (jk : Int × Int) : Pt3 :=
  (p * a.1 + (b.1 - a.1) * jk.1 + (c.1 - a.1) * jk.2,
   p * a.2.1 + (b.2.1 - a.2.1) * jk.1 + (c.2.1 - a.2.1) * jk.2,
   p * a.2.2 + (b.2.2 - a.2.2) * jk.1 + (c.2.2 - a.2.2) * jk.2)

def tetVertex : Nat → Pt3
  | 0 => (0, 0, 0) | 1 => (1, 0, 0) | 2 => (0, 1, 0) | _ => (0, 0, 1)
def tetFace : Nat → Nat × Nat × Nat
  | 0 => (1, 2, 3) | 1 => (0, 3, 2) | 2 => (0, 1, 3) | _ => (0, 2, 1)
def hexVertex : Nat → Pt3
  | 0 => (0, 0, 0) | 1 => (1, 0, 0) | 2 => (1, 1, 0) | 3 => (0, 1, 0)
  | 4 => (0, 0, 1) | 5 => (1, 0, 1) | 6 => (1, 1, 1) | _ => (0, 1, 1)
def hexFace : Nat → Nat × Nat × Nat × Nat
  | 0 => (3, 2, 1, 0) | 1 => (0, 1, 5, 4) | 2 => (1, 2, 6, 5)
  | 3 => (2, 3, 7, 6) | 4 => (3, 0, 4, 7) | _ => (4, 5, 6, 7)

def tetPlace (p : Int) (f : Nat) : Int × Int → Pt3 :=
  affine3 p (tetVertex (tetFace f).1) (tetVertex (tetFace f).2.1) (tetVertex (tetFace f).2.2)
def hexPlace (p : Int) (f : Nat) : Int × Int → Pt3 :=
  affine3 p (hexVertex (hexFace f).1) (hexVertex (hexFace f).2.1) (hexVertex (hexFace f).2.2.2)

/-- The equation of each face. -/
def OnTetFace (p : Int) (f : Nat) (q : Pt3) : Prop :=
  match f with
  | 0 => q.1 + q.2.1 + q.2.2 = p
  | 1 => q.1 = 0
  | 2 => q.2.1 = 0
  | _ => q.2.2 = 0
def OnHexFace (p : Int) (f : Nat) (q : Pt3) : Prop :=
  match f with
  | 0 => q.2.2 = 0
  | 1 => q.2.1 = 0
  | 2 => q.1 = p
  | 3 => q.2.1 = p
  | 4 => q.1 = 0
  | _ => q.2.2 = p

def triNode (p : Int) (q : Int × Int) : Int := triId p q.1 q.2
def quadNode (p : Int) (q : Int × Int) : Int := quadId p q.1 q.2
def tetNode (p : Int) (q : Pt3) : Int := tetId p q.1 q.2.1 q.2.2
def hexNode (p : Int) (q : Pt3) : Int := hexId p q.1 q.2.1 q.2.2

private theorem tetPlace_mem (p : Int) (f : Nat) (hf : f < 4) (q : Int × Int) (h : InTri p q) :
    InTet p (tetPlace p f q) ∧ OnTetFace p f (tetPlace p f q) := by
  obtain ⟨i, j⟩ := q
  simp only [InTri, InTet] at h ⊢
  interval_cases f <;> simp only [tetPlace, affine3, tetFace, tetVertex, OnTetFace] <;> omega

private theorem hexPlace_mem (p : Int) (f : Nat) (hf : f < 6) (q : Int × Int) (h : InQuad p q) :
    InHex p (hexPlace p f q) ∧ OnHexFace p f (hexPlace p f q) := by
  obtain ⟨i, j⟩ := q
  simp only [InQuad, InHex] at h ⊢
  interval_cases f <;> simp only [hexPlace, affine3, hexFace, hexVertex, OnHexFace] <;> omega

private theorem tetPlace_surj (p : Int) (f : Nat) (hf : f < 4) (q : Pt3) (h : InTet p q) (h' : OnTetFace p f q) :
    ∃ r, InTri p r ∧ tetPlace p f r = q := by
  obtain ⟨x, y, z⟩ := q
  simp only [InTet] at h
  interval_cases f <;> simp only [OnTetFace] at h' <;>
    simp only [InTri, tetPlace, affine3, tetFace, tetVertex, Prod.mk.injEq, Prod.exists]
  · exact ⟨y, z, by omega, by omega, by omega, by omega⟩
  · exact ⟨z, y, by omega, by omega, by omega, by omega⟩
  · exact ⟨x, z, by omega, by omega, by omega, by omega⟩
  · exact ⟨y, x, by omega, by omega, by omega, by omega⟩

private theorem hexPlace_surj (p : Int) (f : Nat) (hf : f < 6) (q : Pt3) (h : InHex p q) (h' : OnHexFace p f q) :
    ∃ r, InQuad p r ∧ hexPlace p f r = q := by
  obtain ⟨x, y, z⟩ := q
  simp only [InHex] at h
  interval_cases f <;> simp only [OnHexFace] at h' <;>
    simp only [InQuad, hexPlace, affine3, hexFace, hexVertex, Prod.mk.injEq, Prod.exists]
  · exact ⟨x, p - y, by omega, by omega, by omega, by omega⟩
  · exact ⟨x, z, by omega, by omega, by omega, by omega⟩
  · exact ⟨y, z, by omega, by omega, by omega, by omega⟩
  · exact ⟨p - x, z, by omega, by omega, by omega, by omega⟩
  · exact ⟨p - y, z, by omega, by omega, by omega, by omega⟩
  · exact ⟨x, y, by omega, by omega, by omega, by omega⟩

private theorem tetPlace_inj (p : Int) (f : Nat) (hf : f < 4) (q r : Int × Int) (h : tetPlace p f q = tetPlace p f r) :
    q = r := by
  obtain ⟨i, j⟩ := q; obtain ⟨k, l⟩ := r
  interval_cases f <;> simp only [tetPlace, affine3, tetFace, tetVertex, Prod.mk.injEq] at h ⊢ <;> omega

private theorem hexPlace_inj (p : Int) (f : Nat) (hf : f < 6) (q r : Int × Int) (h : hexPlace p f q = hexPlace p f r) :
    q = r := by
  obtain ⟨i, j⟩ := q; obtain ⟨k, l⟩ := r
  interval_cases f <;> simp only [hexPlace, affine3, hexFace, hexVertex, Prod.mk.injEq] at h ⊢ <;> omega

private theorem tetNode_inj {p : Int} {q r : Pt3} (hq : InTet p q) (hr : InTet p r) (e : tetNode p q = tetNode p r) :
    q = r := by
  have := tetId_inj hq.1 hq.2.1 hq.2.2.2 hr.1 hr.2.1 hr.2.2.2 e
  exact Prod.ext this.1 (Prod.ext this.2.1 this.2.2)

private theorem hexNode_inj {p : Int} {q r : Pt3} (hq : InHex p q) (hr : InHex p r) (e : hexNode p q = hexNode p r) :
    q = r := by
  have := hexId_inj hq.1.1 hq.1.2 hr.1.1 hr.1.2 hq.2.1.1 hq.2.1.2 hr.2.1.1 hr.2.1.2 e
  exact Prod.ext this.1 (Prod.ext this.2.1 this.2.2)

/-- **C05, tetrahedra: position.**  The table is filled without out-of-range writes and its `(j,k)` entry is the node at
the corresponding position in the frame of the face's vertices. -/
theorem C05_tet_position (p : Int) (f : Nat) (hf : f < 4) :
    ∃ t, (tetFaceRow p f).val = some t ∧ ∀ q, InTri p q → t (triNode p q) = tetNode p (tetPlace p f q) := by
  have e : tetFaceRow p f = (Row.zero ((p + 1) * (p + 2) / 2)).writes
      ((triLoop p).map fun q => (triNode p q, tetNode p (tetPlace p f q))) := by
    unfold tetFaceRow; congr 1; apply List.map_congr_left; rintro ⟨j, k⟩ -
    simp only [triNode, Prod.mk.injEq, true_and]
    interval_cases f <;> simp only [tetNode, tetPlace, affine3, tetFace, tetVertex] <;> congr 1 <;> ring
  rw [e]
  obtain ⟨t, h1, h2⟩ := Row.writes_map (triLoop p) (triNode p) (fun q => tetNode p (tetPlace p f q)) _
    (fun q hq => by have := mem_triLoop.mp hq; exact triId_range this.1 this.2.1 this.2.2)
    (fun q hq r hr e => by
      have a := mem_triLoop.mp hq; have b := mem_triLoop.mp hr
      have c := triId_inj a.1 a.2.2 b.1 b.2.2 e
      rw [show q = r from Prod.ext c.1 c.2])
  exact ⟨t, h1, fun q hq => h2 q (mem_triLoop.mpr hq)⟩

theorem C05_hex_position (p : Int) (f : Nat) (hf : f < 6) :
    ∃ t, (hexFaceRow p f).val = some t ∧ ∀ q, InQuad p q → t (quadNode p q) = hexNode p (hexPlace p f q) := by
  have e : hexFaceRow p f = (Row.zero ((p + 1) * (p + 1))).writes
      ((quadLoop p).map fun q => (quadNode p q, hexNode p (hexPlace p f q))) := by
    unfold hexFaceRow; congr 1; apply List.map_congr_left; rintro ⟨j, k⟩ -
    simp only [quadNode, Prod.mk.injEq, true_and]
    interval_cases f <;> simp only [hexNode, hexPlace, affine3, hexFace, hexVertex] <;> congr 1 <;> ring
  rw [e]
  obtain ⟨t, h1, h2⟩ := Row.writes_map (quadLoop p) (quadNode p) (fun q => hexNode p (hexPlace p f q)) _
    (fun q hq => by have := mem_quadLoop.mp hq; exact quadId_range this.1.1 this.1.2 this.2.1 this.2.2)
    (fun q hq r hr e => by
      have a := mem_quadLoop.mp hq; have b := mem_quadLoop.mp hr
      have c := quadId_inj a.1.1 a.1.2 b.1.1 b.1.2 e
      rw [show q = r from Prod.ext c.1 c.2])
  exact ⟨t, h1, fun q hq => h2 q (mem_quadLoop.mpr hq)⟩

/-- **C05, tetrahedra: selection.**  The row of a face contains a node number exactly when that node is a lattice point on
the face, and no number twice. -/
theorem C05_tet (p : Int) (hp : 0 ≤ p) (f : Nat) (hf : f < 4) (t : Int → Int) (ht : (tetFaceRow p f).val = some t) :
    (∀ n, (∃ c, 0 ≤ c ∧ c < (p + 1) * (p + 2) / 2 ∧ t c = n) ↔
      ∃ q, InTet p q ∧ OnTetFace p f q ∧ tetNode p q = n) ∧
    (∀ c c', 0 ≤ c → c < (p + 1) * (p + 2) / 2 → 0 ≤ c' → c' < (p + 1) * (p + 2) / 2 → t c = t c' → c = c') := by
  obtain ⟨t', h1, h2⟩ := C05_tet_position p f hf
  obtain rfl : t = t' := by rw [ht] at h1; exact Option.some.inj h1
  constructor
  · intro n
    constructor
    · rintro ⟨c, hc0, hc1, rfl⟩
      obtain ⟨x, y, hx, hy, hxy, rfl⟩ := triId_surj hc0 hc1 hp
      have hq : InTri p (x, y) := ⟨hx, hy, hxy⟩
      have := tetPlace_mem p f hf (x, y) hq
      exact ⟨_, this.1, this.2, (h2 (x, y) hq).symm⟩
    · rintro ⟨q, hq, hqf, rfl⟩
      obtain ⟨r, hr, rfl⟩ := tetPlace_surj p f hf q hq hqf
      have := triId_range hr.1 hr.2.1 hr.2.2
      exact ⟨triNode p r, this.1, this.2, h2 r hr⟩
  · intro c c' h0 h1 h0' h1' e
    obtain ⟨x, y, hx, hy, hxy, rfl⟩ := triId_surj h0 h1 hp
    obtain ⟨x', y', hx', hy', hxy', rfl⟩ := triId_surj h0' h1' hp
    have hq : InTri p (x, y) := ⟨hx, hy, hxy⟩
    have hq' : InTri p (x', y') := ⟨hx', hy', hxy'⟩
    have e' : tetNode p (tetPlace p f (x, y)) = tetNode p (tetPlace p f (x', y')) := by
      rw [← h2 _ hq, ← h2 _ hq']; exact e
    have := tetPlace_inj p f hf _ _
      (tetNode_inj (tetPlace_mem p f hf _ hq).1 (tetPlace_mem p f hf _ hq').1 e')
    simp only [Prod.mk.injEq] at this
    rw [this.1, this.2]

/-- **C05, hexahedra: selection.** -/
theorem C05_hex (p : Int) (hp : 0 ≤ p) (f : Nat) (hf : f < 6) (t : Int → Int) (ht : (hexFaceRow p f).val = some t) :
    (∀ n, (∃ c, 0 ≤ c ∧ c < (p + 1) * (p + 1) ∧ t c = n) ↔
      ∃ q, InHex p q ∧ OnHexFace p f q ∧ hexNode p q = n) ∧
    (∀ c c', 0 ≤ c → c < (p + 1) * (p + 1) → 0 ≤ c' → c' < (p + 1) * (p + 1) → t c = t c' → c = c') := by
  obtain ⟨t', h1, h2⟩ := C05_hex_position p f hf
  obtain rfl : t = t' := by rw [ht] at h1; exact Option.some.inj h1
  constructor
  · intro n
    constructor
    · rintro ⟨c, hc0, hc1, rfl⟩
      obtain ⟨x, y, hx, hxp, hy, hyp, rfl⟩ := quadId_surj hp hc0 hc1
      have hq : InQuad p (x, y) := ⟨⟨hx, hxp⟩, hy, hyp⟩
      have := hexPlace_mem p f hf (x, y) hq
      exact ⟨_, this.1, this.2, (h2 (x, y) hq).symm⟩
    · rintro ⟨q, hq, hqf, rfl⟩
      obtain ⟨r, hr, rfl⟩ := hexPlace_surj p f hf q hq hqf
      have := quadId_range hr.1.1 hr.1.2 hr.2.1 hr.2.2
      exact ⟨quadNode p r, this.1, this.2, h2 r hr⟩
  · intro c c' h0 h1 h0' h1' e
    obtain ⟨x, y, hx, hxp, hy, hyp, rfl⟩ := quadId_surj hp h0 h1
    obtain ⟨x', y', hx', hxp', hy', hyp', rfl⟩ := quadId_surj hp h0' h1'
    have hq : InQuad p (x, y) := ⟨⟨hx, hxp⟩, hy, hyp⟩
    have hq' : InQuad p (x', y') := ⟨⟨hx', hxp'⟩, hy', hyp'⟩
    have e' : hexNode p (hexPlace p f (x, y)) = hexNode p (hexPlace p f (x', y')) := by
      rw [← h2 _ hq, ← h2 _ hq']; exact e
    have := hexPlace_inj p f hf _ _
      (hexNode_inj (hexPlace_mem p f hf _ hq).1 (hexPlace_mem p f hf _ hq').1 e')
    simp only [Prod.mk.injEq] at this
    rw [this.1, this.2]

/-! ### Two-dimensional elements: edges listed counter-clockwise -/

def OnTriEdge (p : Int) (f : Nat) (q : Int × Int) : Prop :=
  match f with
  | 0 => q.2 = 0
  | 1 => q.1 + q.2 = p
  | _ => q.1 = 0
def OnQuadEdge (p : Int) (f : Nat) (q : Int × Int) : Prop :=
  match f with
  | 0 => q.2 = 0
  | 1 => q.1 = p
  | 2 => q.2 = p
  | _ => q.1 = 0

/-- Corner `v` of the reference triangle / square, counter-clockwise. -/
def triCorner : Nat → Int × Int | 0 => (0, 0) | 1 => (1, 0) | 2 => (0, 1) | _ => (0, 0)
def quadCorner : Nat → Int × Int | 0 => (0, 0) | 1 => (1, 0) | 2 => (1, 1) | 3 => (0, 1) | _ => (0, 0)

/-- The k-th of p+1 points on the segment from `a` to `b`. -/
def along (p : Int) (a b : Int × Int) (k : Int) : Int × Int :=
  (p * a.1 + (b.1 - a.1) * k, p * a.2 + (b.2 - a.2) * k)

/-- **C05, triangles.**  Entry `k` of edge `f` is the `k`-th point from corner `f` to corner `f+1` (counter-clockwise), and
the edge lists exactly the nodes on it. -/
theorem C05_tri (p : Int) (f : Nat) (hf : f < 3) :
    ∃ t, (triFaceRow p f).val = some t ∧
      (∀ k, 0 ≤ k → k ≤ p → t k = triNode p (along p (triCorner f) (triCorner (f + 1)) k)) ∧
      (∀ n, (∃ k, 0 ≤ k ∧ k ≤ p ∧ t k = n) ↔ ∃ q, InTri p q ∧ OnTriEdge p f q ∧ triNode p q = n) := by
  have e : triFaceRow p f = (Row.zero (p + 1)).writes ((upTo p).map fun k =>
      (k, triNode p (along p (triCorner f) (triCorner (f + 1)) k))) := by
    unfold triFaceRow; congr 1; apply List.map_congr_left; rintro k -
    simp only [Prod.mk.injEq, true_and]
    interval_cases f <;> simp only [triNode, along, triCorner] <;> congr 1 <;> ring
  rw [e]
  obtain ⟨t, h1, h2⟩ := Row.writes_map (upTo p) (fun k => k)
    (fun k => triNode p (along p (triCorner f) (triCorner (f + 1)) k)) (p + 1)
    (fun k hk => by have := mem_upTo.mp hk; omega)
    (fun a _ b _ e => by rw [show a = b from e])
  have h3 : ∀ k, 0 ≤ k → k ≤ p → t k = triNode p (along p (triCorner f) (triCorner (f + 1)) k) :=
    fun k h0 hp => h2 k (mem_upTo.mpr ⟨h0, hp⟩)
  refine ⟨t, h1, h3, fun n => ⟨?_, ?_⟩⟩
  · rintro ⟨k, h0, hp, rfl⟩
    refine ⟨_, ?_, ?_, (h3 k h0 hp).symm⟩ <;> interval_cases f <;>
      simp only [InTri, along, triCorner, OnTriEdge] <;> omega
  · rintro ⟨⟨x, y⟩, hq, hqf, rfl⟩
    simp only [InTri] at hq
    interval_cases f <;> simp only [OnTriEdge] at hqf
    · exact ⟨x, by omega, by omega, by
        rw [h3 x (by omega) (by omega)]; simp only [along, triCorner]; congr 1; ext <;> simp; omega⟩
    · exact ⟨y, by omega, by omega, by
        rw [h3 y (by omega) (by omega)]; simp only [along, triCorner]; congr 1; ext <;> simp; omega⟩
    · exact ⟨p - y, by omega, by omega, by
        rw [h3 (p - y) (by omega) (by omega)]; simp only [along, triCorner]; congr 1; ext <;> simp; omega⟩

/-- **C05, quadrilaterals.** -/
theorem C05_quad (p : Int) (f : Nat) (hf : f < 4) :
    ∃ t, (quadFaceRow p f).val = some t ∧
      (∀ k, 0 ≤ k → k ≤ p → t k = quadNode p (along p (quadCorner f) (quadCorner (f + 1)) k)) ∧
      (∀ n, (∃ k, 0 ≤ k ∧ k ≤ p ∧ t k = n) ↔ ∃ q, InQuad p q ∧ OnQuadEdge p f q ∧ quadNode p q = n) := by
  have e : quadFaceRow p f = (Row.zero (p + 1)).writes ((upTo p).map fun k =>
      (k, quadNode p (along p (quadCorner f) (quadCorner (f + 1)) k))) := by
    unfold quadFaceRow; congr 1; apply List.map_congr_left; rintro k -
    simp only [Prod.mk.injEq, true_and]
    interval_cases f <;> simp only [quadNode, along, quadCorner] <;> congr 1 <;> ring
  rw [e]
  obtain ⟨t, h1, h2⟩ := Row.writes_map (upTo p) (fun k => k)
    (fun k => quadNode p (along p (quadCorner f) (quadCorner (f + 1)) k)) (p + 1)
    (fun k hk => by have := mem_upTo.mp hk; omega)
    (fun a _ b _ e => by rw [show a = b from e])
  have h3 : ∀ k, 0 ≤ k → k ≤ p → t k = quadNode p (along p (quadCorner f) (quadCorner (f + 1)) k) :=
    fun k h0 hp => h2 k (mem_upTo.mpr ⟨h0, hp⟩)
  refine ⟨t, h1, h3, fun n => ⟨?_, ?_⟩⟩
  · rintro ⟨k, h0, hp, rfl⟩
    refine ⟨_, ?_, ?_, (h3 k h0 hp).symm⟩ <;> interval_cases f <;>
      simp only [InQuad, along, quadCorner, OnQuadEdge] <;> omega
  · rintro ⟨⟨x, y⟩, hq, hqf, rfl⟩
    simp only [InQuad] at hq
    interval_cases f <;> simp only [OnQuadEdge] at hqf
    · exact ⟨x, by omega, by omega, by
        rw [h3 x (by omega) (by omega)]; simp only [along, quadCorner]; congr 1; ext <;> simp; omega⟩
    · exact ⟨y, by omega, by omega, by
        rw [h3 y (by omega) (by omega)]; simp only [along, quadCorner]; congr 1; ext <;> simp; omega⟩
    · exact ⟨p - x, by omega, by omega, by
        rw [h3 (p - x) (by omega) (by omega)]; simp only [along, quadCorner]; congr 1; ext <;> simp; omega⟩
    · exact ⟨p - y, by omega, by omega, by
        rw [h3 (p - y) (by omega) (by omega)]; simp only [along, quadCorner]; congr 1; ext <;> simp; omega⟩

example : InTet 3 (1, 0, 2) ∧ OnTetFace 3 0 (1, 0, 2) ∧ OnTetFace 3 2 (1, 0, 2) := by
  simp [InTet, OnTetFace]
example : InHex 2 (2, 1, 0) ∧ OnHexFace 2 0 (2, 1, 0) ∧ OnHexFace 2 2 (2, 1, 0) := by
  simp [InHex, OnHexFace]

end Serac.C05
