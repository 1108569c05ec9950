import Verif.Proofs.NodeIds
/-!
# C03: lexicographic node numbering is a bijection for every polynomial order
-/

namespace Serac.C03

/-- Lattice points of a triangle / tetrahedron / quadrilateral / hexahedron of order `p`. -/
def InTri (p x y : Int) : Prop := 0 ≤ x ∧ 0 ≤ y ∧ x + y ≤ p
def InTet (p x y z : Int) : Prop := 0 ≤ x ∧ 0 ≤ y ∧ 0 ≤ z ∧ x + y + z ≤ p
def InQuad (p x y : Int) : Prop := (0 ≤ x ∧ x ≤ p) ∧ (0 ≤ y ∧ y ≤ p)
def InHex (p x y z : Int) : Prop := (0 ≤ x ∧ x ≤ p) ∧ (0 ≤ y ∧ y ≤ p) ∧ (0 ≤ z ∧ z ≤ p)

/-- Every node number in range is the number of exactly one triangle lattice point, and lattice points get numbers in range. -/
theorem C03_triangle (p : Int) (hp : 0 ≤ p) :
    (∀ x y, InTri p x y → 0 ≤ triId p x y ∧ triId p x y < (p + 1) * (p + 2) / 2) ∧
    (∀ n, 0 ≤ n → n < (p + 1) * (p + 2) / 2 → ∃! q : Int × Int, InTri p q.1 q.2 ∧ triId p q.1 q.2 = n) := by
  refine ⟨fun x y h => triId_range h.1 h.2.1 h.2.2, fun n h0 h1 => ?_⟩
  obtain ⟨x, y, hx, hy, hxy, e⟩ := triId_surj h0 h1 hp
  refine ⟨(x, y), ⟨⟨hx, hy, hxy⟩, e⟩, ?_⟩
  rintro ⟨x', y'⟩ ⟨⟨hx', hy', hxy'⟩, e'⟩
  have := triId_inj hx' hxy' hx hxy (e'.trans e.symm)
  simpa using this

theorem C03_quadrilateral (p : Int) (hp : 0 ≤ p) :
    (∀ x y, InQuad p x y → 0 ≤ quadId p x y ∧ quadId p x y < (p + 1) * (p + 1)) ∧
    (∀ n, 0 ≤ n → n < (p + 1) * (p + 1) → ∃! q : Int × Int, InQuad p q.1 q.2 ∧ quadId p q.1 q.2 = n) := by
  refine ⟨fun x y h => quadId_range h.1.1 h.1.2 h.2.1 h.2.2, fun n h0 h1 => ?_⟩
  obtain ⟨x, y, hx, hxp, hy, hyp, e⟩ := quadId_surj hp h0 h1
  refine ⟨(x, y), ⟨⟨⟨hx, hxp⟩, hy, hyp⟩, e⟩, ?_⟩
  rintro ⟨x', y'⟩ ⟨⟨⟨hx', hxp'⟩, hy', hyp'⟩, e'⟩
  have := quadId_inj hx' hxp' hx hxp (e'.trans e.symm)
  simpa using this

theorem C03_tetrahedron (p : Int) (hp : 0 ≤ p) :
    (∀ x y z, InTet p x y z → 0 ≤ tetId p x y z ∧ tetId p x y z < (p + 1) * (p + 2) * (p + 3) / 6) ∧
    (∀ n, 0 ≤ n → n < (p + 1) * (p + 2) * (p + 3) / 6 →
      ∃! q : Int × Int × Int, InTet p q.1 q.2.1 q.2.2 ∧ tetId p q.1 q.2.1 q.2.2 = n) := by
  refine ⟨fun x y z h => tetId_range h.1 h.2.1 h.2.2.1 h.2.2.2, fun n h0 h1 => ?_⟩
  obtain ⟨x, y, z, hx, hy, hz, hs, e⟩ := tetId_surj h0 h1 hp
  refine ⟨(x, y, z), ⟨⟨hx, hy, hz, hs⟩, e⟩, ?_⟩
  rintro ⟨x', y', z'⟩ ⟨⟨hx', hy', hz', hs'⟩, e'⟩
  have := tetId_inj hx' hy' hs' hx hy hs (e'.trans e.symm)
  simpa using this

theorem C03_hexahedron (p : Int) (hp : 0 ≤ p) :
    (∀ x y z, InHex p x y z → 0 ≤ hexId p x y z ∧ hexId p x y z < (p + 1) * (p + 1) * (p + 1)) ∧
    (∀ n, 0 ≤ n → n < (p + 1) * (p + 1) * (p + 1) →
      ∃! q : Int × Int × Int, InHex p q.1 q.2.1 q.2.2 ∧ hexId p q.1 q.2.1 q.2.2 = n) := by
  refine ⟨fun x y z h => hexId_range h.1.1 h.1.2 h.2.1.1 h.2.1.2 h.2.2.1 h.2.2.2, fun n h0 h1 => ?_⟩
  obtain ⟨x, y, z, hx, hy, hz, e⟩ := hexId_surj hp h0 h1
  refine ⟨(x, y, z), ⟨⟨hx, hy, hz⟩, e⟩, ?_⟩
  rintro ⟨x', y', z'⟩ ⟨⟨hx', hy', hz'⟩, e'⟩
  have := hexId_inj hx'.1 hx'.2 hx.1 hx.2 hy'.1 hy'.2 hy.1 hy.2 (e'.trans e.symm)
  simpa using this

/-- The numbering is *lexicographic*: x runs fastest, then y, then z. -/
theorem C03_lexicographic_tri (p x y x' y' : Int) (h : InTri p x y) (h' : InTri p x' y') :
    triId p x y < triId p x' y' ↔ y < y' ∨ (y = y' ∧ x < x') :=
  triId_lt_iff h.1 h.2.2 h'.1 h'.2.2

theorem C03_lexicographic_quad (p x y x' y' : Int) (h : InQuad p x y) (h' : InQuad p x' y') :
    quadId p x y < quadId p x' y' ↔ y < y' ∨ (y = y' ∧ x < x') :=
  quadId_lt_iff h.1.1 h.1.2 h'.1.1 h'.1.2

theorem C03_lexicographic_tet (p x y z x' y' z' : Int) (h : InTet p x y z) (h' : InTet p x' y' z') :
    tetId p x y z < tetId p x' y' z' ↔ z < z' ∨ (z = z' ∧ (y < y' ∨ (y = y' ∧ x < x'))) :=
  tetId_lt_iff h.1 h.2.1 h.2.2.2 h'.1 h'.2.1 h'.2.2.2

theorem C03_lexicographic_hex (p x y z x' y' z' : Int) (h : InHex p x y z) (h' : InHex p x' y' z') :
    hexId p x y z < hexId p x' y' z' ↔ z < z' ∨ (z = z' ∧ (y < y' ∨ (y = y' ∧ x < x'))) :=
  hexId_lt_iff h.1.1 h.1.2 h'.1.1 h'.1.2 h.2.1.1 h.2.1.2 h'.2.1.1 h'.2.1.2

example : InTet 4 1 2 1 ∧ tetId 4 1 2 1 = 23 := by unfold InTet; decide
example : InHex 2 1 2 0 ∧ InTri 3 1 2 ∧ InQuad 3 3 0 := by unfold InHex InTri InQuad; decide

end Serac.C03
