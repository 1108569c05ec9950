import Verif.Model.Ring
import Mathlib.Analysis.SpecialFunctions.Trigonometric.Arctan
import Mathlib.Tactic.Linarith
import Mathlib.Tactic.Ring
import Mathlib.Tactic.FieldSimp
import Mathlib.Tactic.LinearCombination
/-!
# C39: ring meshes

Spec.  An element is oriented positively if the Jacobian determinant of its bilinear map is positive on the whole reference square (`jac`).  A mesh is
conforming if each directed edge belongs to at most one element; the neighbour across an edge has it in the opposite direction.  The generated ring
must lie between the two circles with its boundary vertices on them.

Holds for a full ring of at least three sectors and for partial rings whose sector angle divides the full angle.  The code fails otherwise:
`C39_angle_wrong`, `C39_two_wrong`, `C39_one_wrong`; and the two straight sides of a partial ring have no boundary elements (`C39_sides_wrong`).
-/

noncomputable section
namespace Serac.C39
open Serac.Ring Real

/-! ## Connectivity of the coarse mesh -/

/-- Directed edges of an element. -/
def edges (N i : ℕ) : List (ℕ × ℕ) := [(i, N + i), (N + i, N + (i + 1) % N), (N + (i + 1) % N, (i + 1) % N), ((i + 1) % N, i)]

/-- The edges are those of the element's vertex list, in order. -/
theorem C39_edges (N i : ℕ) : edges N i = (elem N i).zip ((elem N i).rotate 1) := rfl

/-- Successor on the circle. -/
theorem next_eq (N i : ℕ) (hi : i < N) : (i + 1) % N = if i + 1 = N then 0 else i + 1 := by
  split
  · rename_i h
    rw [h, Nat.mod_self]
  · exact Nat.mod_eq_of_lt (by omega)

/-- **C39, vertex numbers** are in range and the four of one element are different (at least two vertices per circle). -/
theorem C39_range (N i : ℕ) (hN : 2 ≤ N) (hi : i < N) : (∀ v ∈ elem N i, v < 2 * N) ∧ (elem N i).Nodup := by
  have hn := next_eq N i hi
  unfold elem
  rw [hn]
  constructor
  · intro v hv
    simp only [List.mem_cons, List.not_mem_nil, or_false] at hv
    split at hv <;> omega
  · split <;> simp <;> omega

/-- **C39, edges.**  A directed edge belongs to one element only; the side edge of element `i` is that of its successor in the other direction. -/
theorem C39_conforming (N i j : ℕ) (hN : 3 ≤ N) (hi : i < N) (hj : j < N) (e : ℕ × ℕ) (h1 : e ∈ edges N i) (h2 : e ∈ edges N j) : i = j := by
  have hni := next_eq N i hi
  have hnj := next_eq N j hj
  unfold edges at h1 h2
  rw [hni] at h1
  rw [hnj] at h2
  obtain ⟨a, b⟩ := e
  simp only [List.mem_cons, Prod.mk.injEq, List.not_mem_nil, or_false] at h1 h2
  split at h1 <;> split at h2 <;> omega

/-- **C39, neighbours** (full ring).  Two elements share an edge iff one follows the other on the circle, and then exactly one edge, in
opposite directions. -/
theorem C39_neighbours (N i j : ℕ) (hN : 3 ≤ N) (hi : i < N) (hj : j < N) (a b : ℕ) :
    ((a, b) ∈ edges N i ∧ (b, a) ∈ edges N j) ↔
      (j = (i + 1) % N ∧ (a, b) = (N + j, j)) ∨ (i = (j + 1) % N ∧ (a, b) = (i, N + i)) := by
  have hni := next_eq N i hi
  have hnj := next_eq N j hj
  unfold edges
  rw [hni, hnj]
  simp only [List.mem_cons, Prod.mk.injEq, List.not_mem_nil, or_false]
  split <;> split <;> omega

/-- **C39, the full ring is closed**: the edges without a neighbour are exactly the boundary elements. -/
theorem C39_boundary (N : ℕ) (hN : 3 ≤ N) (a b : ℕ) :
    ((∃ i < N, (a, b) ∈ edges N i) ∧ ¬∃ j < N, (b, a) ∈ edges N j) ↔ (a, b) ∈ boundary N N := by
  have hb : (a, b) ∈ boundary N N ↔ ∃ i < N, ((a, b) = ((i + 1) % N, i) ∨ (a, b) = (N + i, N + (i + 1) % N)) := by
    unfold boundary
    simp only [List.mem_append, List.mem_map, List.mem_range]
    constructor
    · rintro (⟨i, hi, h⟩ | ⟨i, hi, h⟩)
      · exact ⟨i, hi, Or.inl h.symm⟩
      · exact ⟨i, hi, Or.inr h.symm⟩
    · rintro ⟨i, hi, h | h⟩
      · exact Or.inl ⟨i, hi, h.symm⟩
      · exact Or.inr ⟨i, hi, h.symm⟩
  rw [hb]
  constructor
  · rintro ⟨⟨i, hi, he⟩, hno⟩
    have hni := next_eq N i hi
    unfold edges at he
    simp only [List.mem_cons, List.not_mem_nil, or_false] at he
    rcases he with he | he | he | he
    · exfalso
      -- the predecessor has it reversed
      obtain ⟨rfl, rfl⟩ := Prod.mk.inj he
      apply hno
      by_cases h0 : a = 0
      · refine ⟨N - 1, by omega, ?_⟩
        have e : (N - 1 + 1) % N = 0 := by rw [Nat.sub_add_cancel (by omega), Nat.mod_self]
        unfold edges
        rw [e, h0]
        simp
      · refine ⟨a - 1, by omega, ?_⟩
        have e : (a - 1 + 1) % N = a := by rw [Nat.sub_add_cancel (by omega), Nat.mod_eq_of_lt hi]
        unfold edges
        rw [e]
        simp
    · exact ⟨i, hi, Or.inr he⟩
    · exfalso
      obtain ⟨rfl, rfl⟩ := Prod.mk.inj he
      apply hno
      refine ⟨(i + 1) % N, Nat.mod_lt _ (by omega), ?_⟩
      unfold edges
      simp
    · exact ⟨i, hi, Or.inl he⟩
  · rintro ⟨i, hi, h⟩
    have hni := next_eq N i hi
    constructor
    · refine ⟨i, hi, ?_⟩
      unfold edges
      rcases h with h | h <;> rw [h] <;> simp
    · rintro ⟨j, hj, he⟩
      have hnj := next_eq N j hj
      unfold edges at he
      rw [hnj] at he
      rw [hni] at h
      simp only [List.mem_cons, Prod.mk.injEq, List.not_mem_nil, or_false] at he h
      split at he <;> split at h <;> omega

/-- **C39, partial ring, refuted**: the straight side at angle zero is an edge of one element only but not a boundary element; likewise the other
side. -/
theorem C39_sides_wrong (n : ℕ) (hn : 0 < n) :
    let N := n + 1
    ((0, N) ∈ edges N 0 ∧ (∀ j < n, (N, 0) ∉ edges N j) ∧ (0, N) ∉ boundary N n ∧ (N, 0) ∉ boundary N n) ∧
    ((N + n, n) ∈ edges N (n - 1) ∧ (∀ j < n, (n, N + n) ∉ edges N j) ∧ (N + n, n) ∉ boundary N n ∧ (n, N + n) ∉ boundary N n) := by
  intro N
  have hb : ∀ a b : ℕ, (a, b) ∈ boundary N n → ∃ i < n, ((a, b) = (i + 1, i) ∨ (a, b) = (N + i, N + (i + 1))) := by
    intro a b h
    unfold boundary at h
    simp only [List.mem_append, List.mem_map, List.mem_range] at h
    rcases h with ⟨i, hi, h⟩ | ⟨i, hi, h⟩ <;> rw [Nat.mod_eq_of_lt (by omega)] at h
    · exact ⟨i, hi, Or.inl h.symm⟩
    · exact ⟨i, hi, Or.inr h.symm⟩
  have he : ∀ (a b j : ℕ), j < n → (a, b) ∈ edges N j →
      (a = j ∧ b = N + j) ∨ (a = N + j ∧ b = N + (j + 1)) ∨ (a = N + (j + 1) ∧ b = j + 1) ∨ (a = j + 1 ∧ b = j) := by
    intro a b j hj h
    unfold edges at h
    rw [Nat.mod_eq_of_lt (by omega)] at h
    simp only [List.mem_cons, Prod.mk.injEq, List.not_mem_nil, or_false] at h
    exact h
  refine ⟨⟨?_, ?_, ?_, ?_⟩, ?_, ?_, ?_, ?_⟩
  · simp [edges]
  · intro j hj h
    have := he _ _ j hj h
    omega
  · intro h
    obtain ⟨i, hi, h | h⟩ := hb _ _ h <;> simp only [Prod.mk.injEq] at h <;> omega
  · intro h
    obtain ⟨i, hi, h | h⟩ := hb _ _ h <;> simp only [Prod.mk.injEq] at h <;> omega
  · unfold edges
    rw [Nat.sub_add_cancel hn, Nat.mod_eq_of_lt (by omega)]
    simp
  · intro j hj h
    have := he _ _ j hj h
    omega
  · intro h
    obtain ⟨i, hi, h | h⟩ := hb _ _ h <;> simp only [Prod.mk.injEq] at h <;> omega
  · intro h
    obtain ⟨i, hi, h | h⟩ := hb _ _ h <;> simp only [Prod.mk.injEq] at h <;> omega

/-! ## Geometry -/

/-- Jacobian determinant of the bilinear map of a quadrilateral at `(ξ, η)`. -/
def jac (q : Quad) (ξ η : ℝ) : ℝ :=
  ((1 - η) * (q.p1.1 - q.p0.1) + η * (q.p2.1 - q.p3.1)) * ((1 - ξ) * (q.p3.2 - q.p0.2) + ξ * (q.p2.2 - q.p1.2)) -
  ((1 - η) * (q.p1.2 - q.p0.2) + η * (q.p2.2 - q.p3.2)) * ((1 - ξ) * (q.p3.1 - q.p0.1) + ξ * (q.p2.1 - q.p1.1))

/-- Unit vector. -/
def dir (θ : ℝ) : Pt := (cos θ, sin θ)

def smul (s : ℝ) (p : Pt) : Pt := (s * p.1, s * p.2)

/-- The annular quadrilateral with radii `r, R` and angles `α, β`. -/
def annular (r R α β : ℝ) : Quad := ⟨smul r (dir α), smul R (dir α), smul R (dir β), smul r (dir β)⟩

theorem jac_annular (r R α β ξ η : ℝ) : jac (annular r R α β) ξ η = (R - r) * (r + ξ * (R - r)) * sin (β - α) := by
  unfold jac annular smul dir
  rw [sin_sub]
  ring

/-- Point of sector `i`: at radius `s` on the chord, at fraction `η`. -/
def chord (angle : ℝ) (i : ℕ) (s η : ℝ) : Pt :=
  (s * ((1 - η) * cos (angle * i) + η * cos (angle * (i + 1 : ℕ))), s * ((1 - η) * sin (angle * i) + η * sin (angle * (i + 1 : ℕ))))

/-- Angle of that point, from the middle of the sector. -/
def psi (angle η : ℝ) : ℝ := arctan ((2 * η - 1) * tan (angle / 2))

theorem psi_bounds (angle η : ℝ) (h0 : 0 < angle) (hpi : angle < π) (hη : 0 ≤ η) (hη1 : η ≤ 1) : -(angle / 2) ≤ psi angle η ∧ psi angle η ≤ angle / 2 := by
  have ht : 0 < tan (angle / 2) := tan_pos_of_pos_of_lt_pi_div_two (by linarith) (by linarith)
  have e : arctan (tan (angle / 2)) = angle / 2 := arctan_tan (by linarith) (by linarith)
  constructor
  · rw [← e, ← arctan_neg]
    apply arctan_mono
    nlinarith
  · conv_rhs => rw [← e]
    apply arctan_mono
    nlinarith

theorem psi_strictMono (angle : ℝ) (h0 : 0 < angle) (hpi : angle < π) : StrictMono (psi angle) := by
  intro a b hab
  have ht : 0 < tan (angle / 2) := tan_pos_of_pos_of_lt_pi_div_two (by linarith) (by linarith)
  apply arctan_strictMono
  nlinarith

/-- The chord in polar coordinates. -/
theorem chord_polar (angle : ℝ) (h0 : 0 < angle) (hpi : angle < π) (i : ℕ) (s η : ℝ) :
    chord angle i s η = smul (s * (cos (angle / 2) / cos (psi angle η))) (dir (angle * i + angle / 2 + psi angle η)) := by
  have hc : 0 < cos (psi angle η) := cos_arctan_pos _
  have hca : 0 < cos (angle / 2) := cos_pos_of_mem_Ioo ⟨by linarith, by linarith⟩
  have ht : sin (psi angle η) = (2 * η - 1) * (sin (angle / 2) / cos (angle / 2)) * cos (psi angle η) := by
    have h := tan_arctan ((2 * η - 1) * tan (angle / 2))
    rw [show arctan ((2 * η - 1) * tan (angle / 2)) = psi angle η from rfl, tan_eq_sin_div_cos, tan_eq_sin_div_cos, div_eq_iff hc.ne'] at h
    exact h
  have e1 : angle * i = (angle * i + angle / 2) - angle / 2 := by ring
  have e2 : angle * (i + 1 : ℕ) = (angle * i + angle / 2) + angle / 2 := by push_cast; ring
  unfold chord smul dir
  generalize angle * (i : ℝ) + angle / 2 = M at *
  rw [e1, e2, cos_sub, cos_add, sin_sub, sin_add, cos_add M, sin_add M, ht]
  have hcne := hc.ne'
  have hcane := hca.ne'
  ext
  · field_simp
    ring
  · field_simp
    ring

theorem fmod_int (x a : ℝ) (ha : 0 < a) (m : ℤ) (y : ℝ) (h : x = y + a * m) (h0 : 0 ≤ y) (h1 : y < a) : fmod x a = y := by
  have : ⌊x / a⌋ = m := by
    rw [Int.floor_eq_iff, h]
    constructor
    · rw [le_div_iff₀ ha]; linarith
    · rw [div_lt_iff₀ ha]; linarith
  rw [fmod, this, h]
  ring

/-- Argument of a point in polar coordinates. -/
theorem arg_polar (ρ θ : ℝ) (h : 0 < ρ) : ∃ m : ℤ, Complex.arg ⟨ρ * cos θ, ρ * sin θ⟩ = θ + 2 * π * m := by
  have h1 := Complex.arg_mul_cos_add_sin_mul_I_coe_angle h (θ : Real.Angle)
  rw [Real.Angle.cos_coe, Real.Angle.sin_coe] at h1
  have h2 : ((ρ : ℂ) * ((cos θ : ℝ) + (sin θ : ℝ) * Complex.I)) = ⟨ρ * cos θ, ρ * sin θ⟩ := by
    apply Complex.ext <;> simp [-Complex.ofReal_cos, -Complex.ofReal_sin]
  rw [h2, Real.Angle.angle_eq_iff_two_pi_dvd_sub] at h1
  obtain ⟨k, hk⟩ := h1
  exact ⟨k, by linarith⟩

/-- **C39, the deformation**: a point of the chord at radius `s` goes to the circle of radius `s`, when the sector angle divides the full angle. -/
theorem C39_stretch (angle : ℝ) (h0 : 0 < angle) (hpi : angle < π) (m : ℕ) (hm : 2 * π = m * angle) (i : ℕ) (s η : ℝ) (hs : 0 < s) (hη : 0 ≤ η) (hη1 : η ≤ 1) :
    stretch angle (chord angle i s η) = smul s (dir (angle * i + angle / 2 + psi angle η)) := by
  have hc : 0 < cos (psi angle η) := cos_arctan_pos _
  have hca : 0 < cos (angle / 2) := cos_pos_of_mem_Ioo ⟨by linarith, by linarith⟩
  obtain ⟨b1, b2⟩ := psi_bounds angle η h0 hpi hη hη1
  rw [chord_polar angle h0 hpi]
  set θ := angle * i + angle / 2 + psi angle η with hθ
  set ρ := s * (cos (angle / 2) / cos (psi angle η)) with hρ
  have hρ0 : 0 < ρ := by positivity
  obtain ⟨k, hk⟩ := arg_polar ρ θ hρ0
  have hx : Complex.arg ⟨(smul ρ (dir θ)).1, (smul ρ (dir θ)).2⟩ + 2 * π = (angle / 2 + psi angle η) + angle * ((i + m * (k + 1) : ℤ)) := by
    have : Complex.arg ⟨(smul ρ (dir θ)).1, (smul ρ (dir θ)).2⟩ = θ + 2 * π * k := hk
    rw [this, hθ, hm]
    push_cast
    ring
  have hfac : cos |1 / 2 * angle - fmod (Complex.arg ⟨(smul ρ (dir θ)).1, (smul ρ (dir θ)).2⟩ + 2 * π) angle| = cos (psi angle η) := by
    rw [cos_abs]
    rcases lt_or_eq_of_le b2 with hlt | heq
    · rw [fmod_int _ angle h0 _ (angle / 2 + psi angle η) hx (by linarith) (by linarith)]
      rw [show 1 / 2 * angle - (angle / 2 + psi angle η) = -psi angle η by ring, cos_neg]
    · rw [fmod_int _ angle h0 (i + m * (k + 1) + 1) 0 (by rw [hx, heq]; push_cast; ring) le_rfl h0, heq]
      congr 1
      ring
  unfold stretch
  dsimp only
  rw [hfac]
  have hcne := hc.ne'
  have e : cos (1 / 2 * angle) = cos (angle / 2) := by congr 1; ring
  rw [e]
  have hρ2 : ρ * (cos (psi angle η) / cos (angle / 2)) = s := by
    rw [hρ]
    field_simp
  unfold smul
  dsimp only
  ext
  · dsimp only
    rw [← hρ2]
    ring
  · dsimp only
    rw [← hρ2]
    ring

/-! ### Refinement -/

/-- The part of sector `i` between radii `s, s'` and fractions `η, η'`. -/
def patch (angle : ℝ) (i : ℕ) (s s' η η' : ℝ) : Quad := ⟨chord angle i s η, chord angle i s' η, chord angle i s' η', chord angle i s η'⟩

theorem mid_radial (angle : ℝ) (i : ℕ) (s s' η : ℝ) : mid (chord angle i s η) (chord angle i s' η) = chord angle i ((s + s') / 2) η := by
  unfold mid chord
  ext <;> dsimp only <;> ring

theorem mid_angular (angle : ℝ) (i : ℕ) (s η η' : ℝ) : mid (chord angle i s η) (chord angle i s η') = chord angle i s ((η + η') / 2) := by
  unfold mid chord
  ext <;> dsimp only <;> ring

theorem mid_comm (a b : Pt) : mid a b = mid b a := by
  unfold mid
  rw [add_comm a.1, add_comm a.2]

theorem centre_patch (angle : ℝ) (i : ℕ) (s s' η η' : ℝ) :
    centre (patch angle i s s' η η') = chord angle i ((s + s') / 2) ((η + η') / 2) := by
  unfold centre patch chord
  ext <;> dsimp only <;> ring

theorem refine_patch (angle : ℝ) (i : ℕ) (s s' η η' : ℝ) : refineQuad (patch angle i s s' η η') =
    [patch angle i s ((s + s') / 2) η ((η + η') / 2), patch angle i ((s + s') / 2) s' η ((η + η') / 2),
     patch angle i ((s + s') / 2) s' ((η + η') / 2) η', patch angle i s ((s + s') / 2) ((η + η') / 2) η'] := by
  unfold refineQuad
  dsimp only
  rw [centre_patch]
  unfold patch
  dsimp only
  rw [mid_radial, mid_comm (chord angle i s η') (chord angle i s η), mid_angular, mid_angular, mid_comm (chord angle i s' η') _, mid_radial]

/-- What the refined mesh consists of. -/
def IsPatch (angle r R : ℝ) (n : ℕ) (q : Quad) : Prop :=
  ∃ i < n, ∃ s s' η η' : ℝ, q = patch angle i s s' η η' ∧ r ≤ s ∧ s < s' ∧ s' ≤ R ∧ 0 ≤ η ∧ η < η' ∧ η' ≤ 1

theorem refine_isPatch (angle r R : ℝ) (n k : ℕ) (qs : List Quad) (h : ∀ q ∈ qs, IsPatch angle r R n q) : ∀ q ∈ refine k qs, IsPatch angle r R n q := by
  induction k generalizing qs with
  | zero => exact h
  | succ k ih =>
    apply ih
    intro q hq
    rw [List.mem_flatMap] at hq
    obtain ⟨q0, hq0, hq⟩ := hq
    obtain ⟨i, hi, s, s', η, η', rfl, h1, h2, h3, h4, h5, h6⟩ := h q0 hq0
    rw [refine_patch] at hq
    simp only [List.mem_cons, List.not_mem_nil, or_false] at hq
    rcases hq with rfl | rfl | rfl | rfl
    · exact ⟨i, hi, _, _, _, _, rfl, h1, by linarith, by linarith, h4, by linarith, by linarith⟩
    · exact ⟨i, hi, _, _, _, _, rfl, by linarith, by linarith, h3, h4, by linarith, by linarith⟩
    · exact ⟨i, hi, _, _, _, _, rfl, by linarith, by linarith, h3, by linarith, by linarith, h6⟩
    · exact ⟨i, hi, _, _, _, _, rfl, h1, by linarith, by linarith, by linarith, by linarith, h6⟩

theorem coarse_patch (r R total : ℝ) (n i : ℕ) (hn : 0 < n) (hi : i < n) :
    coarse r R (sectorAngle total n) (numRing total n) i = patch (sectorAngle total n) i r R 0 1 := by
  set a := sectorAngle total n with ha
  set N := numRing total n with hN
  have hiN : i < N := by
    rw [hN, numRing]
    split <;> omega
  have hnext : cos (a * ((i + 1) % N : ℕ)) = cos (a * (i + 1 : ℕ)) ∧ sin (a * ((i + 1) % N : ℕ)) = sin (a * (i + 1 : ℕ)) := by
    rw [next_eq N i hiN]
    split
    · rename_i he
      have hfull : limited total = 2 * π := by
        by_contra hne
        rw [hN, numRing, if_neg hne] at he
        omega
      have hNn : N = n := by rw [hN, numRing, if_pos hfull]
      have : a * (i + 1 : ℕ) = 2 * π := by
        rw [he, hNn, ha, sectorAngle, hfull]
        have : (n : ℝ) ≠ 0 := by exact_mod_cast hn.ne'
        field_simp
      rw [this]
      simp
    · exact ⟨rfl, rfl⟩
  have hlt : (i + 1) % N < N := Nat.mod_lt _ (by omega)
  unfold coarse patch
  have v1 : vertex r R a N i = chord a i r 0 := by
    unfold vertex chord
    rw [if_pos hiN]
    ext <;> dsimp only <;> ring
  have v2 : vertex r R a N (N + i) = chord a i R 0 := by
    unfold vertex chord
    rw [if_neg (by omega), Nat.add_sub_cancel_left]
    ext <;> dsimp only <;> ring
  have v3 : vertex r R a N (N + (i + 1) % N) = chord a i R 1 := by
    unfold vertex chord
    rw [if_neg (by omega), Nat.add_sub_cancel_left, hnext.1, hnext.2]
    ext <;> dsimp only <;> ring
  have v4 : vertex r R a N ((i + 1) % N) = chord a i r 1 := by
    unfold vertex chord
    rw [if_pos hlt, hnext.1, hnext.2]
    ext <;> dsimp only <;> ring
  rw [v1, v2, v3, v4]

/-- The ring can be built: the sector angle is below `π` and divides the full angle.  In a full ring this means at least three sectors
(`C39_full`). -/
def Good (total : ℝ) (n : ℕ) : Prop := 0 < n ∧ 0 < total ∧ sectorAngle total n < π ∧ ∃ m : ℕ, 2 * π = m * sectorAngle total n

theorem C39_full (total : ℝ) (n : ℕ) (h : 2 * π ≤ total) (hn : 3 ≤ n) : Good total n := by
  have hl : limited total = 2 * π := min_eq_right h
  have hn0 : (0 : ℝ) < n := by exact_mod_cast (by omega : 0 < n)
  have hn3 : (3 : ℝ) ≤ n := by exact_mod_cast hn
  refine ⟨by omega, by linarith [pi_pos], ?_, n, ?_⟩
  · rw [sectorAngle, hl, div_lt_iff₀ hn0]
    nlinarith [pi_pos]
  · rw [sectorAngle, hl]
    field_simp

/-- **C39, the whole mesh** (partial: `Good`), after any number of refinements: every element is the annular quadrilateral between two radii in
`[r, R]` and two angles less than `π` apart. -/
theorem C39_elements_partial (k : ℕ) (r R total : ℝ) (n : ℕ) (hr : 0 < r) (hR : r < R) (h : Good total n) :
    ∀ q ∈ buildRing k r R total n, ∃ s s' α β : ℝ, q = annular s s' α β ∧ r ≤ s ∧ s < s' ∧ s' ≤ R ∧ α < β ∧ β - α < π := by
  obtain ⟨hn, htot, hpi, m, hm⟩ := h
  have ha : 0 < sectorAngle total n := by
    have hn0 : (0 : ℝ) < n := by exact_mod_cast hn
    have : 0 < limited total := lt_min htot (by linarith [pi_pos])
    exact div_pos this hn0
  intro q hq
  unfold buildRing at hq
  dsimp only at hq
  rw [List.mem_map] at hq
  obtain ⟨q0, hq0, rfl⟩ := hq
  have hcoarse : ∀ q ∈ (List.range n).map (coarse r R (sectorAngle total n) (numRing total n)), IsPatch (sectorAngle total n) r R n q := by
    intro q hq
    rw [List.mem_map] at hq
    obtain ⟨i, hi, rfl⟩ := hq
    rw [List.mem_range] at hi
    exact ⟨i, hi, r, R, 0, 1, coarse_patch r R total n i hn hi, le_rfl, hR, le_rfl, le_rfl, one_pos, le_rfl⟩
  obtain ⟨i, -, s, s', η, η', rfl, h1, h2, h3, h4, h5, h6⟩ := refine_isPatch _ r R n k _ hcoarse q0 hq0
  set a := sectorAngle total n
  refine ⟨s, s', a * i + a / 2 + psi a η, a * i + a / 2 + psi a η', ?_, h1, h2, h3, ?_, ?_⟩
  · unfold patch annular
    dsimp only
    rw [C39_stretch a ha hpi m hm i s η (by linarith) h4 (by linarith), C39_stretch a ha hpi m hm i s' η (by linarith) h4 (by linarith),
      C39_stretch a ha hpi m hm i s' η' (by linarith) (by linarith) h6, C39_stretch a ha hpi m hm i s η' (by linarith) (by linarith) h6]
  · have := psi_strictMono a ha hpi h5
    linarith
  · have b1 := psi_bounds a η ha hpi h4 (by linarith)
    have b2 := psi_bounds a η' ha hpi (by linarith) h6
    linarith [b1.1, b2.2]

/-- **C39, orientation** (partial: `Good`): the Jacobian is positive on the whole reference square of every element. -/
theorem C39_orientation_partial (k : ℕ) (r R total : ℝ) (n : ℕ) (hr : 0 < r) (hR : r < R) (h : Good total n) :
    ∀ q ∈ buildRing k r R total n, ∀ ξ η : ℝ, 0 ≤ ξ → ξ ≤ 1 → 0 < jac q ξ η := by
  intro q hq ξ η h0 h1
  obtain ⟨s, s', α, β, rfl, g1, g2, g3, g4, g5⟩ := C39_elements_partial k r R total n hr hR h q hq
  rw [jac_annular]
  have hs : 0 < sin (β - α) := sin_pos_of_pos_of_lt_pi (by linarith) g5
  have : 0 < s + ξ * (s' - s) := by nlinarith
  exact mul_pos (mul_pos (by linarith) this) hs

/-- Distance from the centre, squared. -/
def dist2 (p : Pt) : ℝ := p.1 ^ 2 + p.2 ^ 2

/-- **C39, radii** (partial: `Good`): all vertices lie between the circles, and the coarse boundary vertices on them. -/
theorem C39_radii_partial (k : ℕ) (r R total : ℝ) (n : ℕ) (hr : 0 < r) (hR : r < R) (h : Good total n) :
    ∀ q ∈ buildRing k r R total n, ∀ p ∈ [q.p0, q.p1, q.p2, q.p3], r ^ 2 ≤ dist2 p ∧ dist2 p ≤ R ^ 2 := by
  intro q hq p hp
  obtain ⟨s, s', α, β, rfl, g1, g2, g3, g4, g5⟩ := C39_elements_partial k r R total n hr hR h q hq
  have e : ∀ s θ : ℝ, dist2 (smul s (dir θ)) = s ^ 2 := by
    intro s θ
    unfold dist2 smul dir
    dsimp only
    linear_combination s ^ 2 * sin_sq_add_cos_sq θ
  simp only [annular, List.mem_cons, List.not_mem_nil, or_false] at hp
  rcases hp with rfl | rfl | rfl | rfl <;> rw [e] <;> constructor <;> nlinarith

/-- **C39, boundary vertices** (partial): every vertex made by refining a chord of the inner or outer polygon ends up exactly on its circle. -/
theorem C39_circle_partial (r total : ℝ) (n i : ℕ) (η : ℝ) (hr : 0 < r) (h : Good total n) (hη : 0 ≤ η) (hη1 : η ≤ 1) :
    dist2 (stretch (sectorAngle total n) (chord (sectorAngle total n) i r η)) = r ^ 2 := by
  obtain ⟨hn, htot, hpi, m, hm⟩ := h
  have ha : 0 < sectorAngle total n := by
    have hn0 : (0 : ℝ) < n := by exact_mod_cast hn
    have : 0 < limited total := lt_min htot (by linarith [pi_pos])
    exact div_pos this hn0
  rw [C39_stretch _ ha hpi m hm i r η hr hη hη1]
  unfold dist2 smul dir
  dsimp only
  linear_combination r ^ 2 * sin_sq_add_cos_sq _

/-- **C39, other partial rings, refuted**: if the sector angle does not divide the full angle, the vertex at angle zero is moved off its circle. -/
theorem C39_angle_wrong (angle s : ℝ) (h0 : 0 < angle) (hpi : angle < π) (hs : 0 < s) (h : ∀ m : ℕ, 2 * π ≠ m * angle) :
    stretch angle (chord angle 0 s 0) = (s * (cos (1 / 2 * angle - fmod (2 * π) angle) / cos (1 / 2 * angle)), 0) ∧
      s ^ 2 < dist2 (stretch angle (chord angle 0 s 0)) := by
  have hch : chord angle 0 s 0 = (s, 0) := by
    unfold chord
    simp
  have harg : Complex.arg ⟨s, 0⟩ = 0 := by
    have := Complex.arg_ofReal_of_nonneg hs.le
    rwa [show (s : ℂ) = ⟨s, 0⟩ from rfl] at this
  have e : stretch angle (chord angle 0 s 0) = (s * (cos (1 / 2 * angle - fmod (2 * π) angle) / cos (1 / 2 * angle)), 0) := by
    rw [hch]
    unfold stretch
    dsimp only
    rw [harg, zero_add, cos_abs, zero_mul]
  refine ⟨e, ?_⟩
  have hfl : 0 ≤ ⌊2 * π / angle⌋ := Int.floor_nonneg.2 (div_nonneg (by linarith [pi_pos]) h0.le)
  have h1 : 0 ≤ fmod (2 * π) angle := by
    unfold fmod
    have := Int.floor_le (2 * π / angle)
    rw [le_div_iff₀ h0] at this
    linarith
  have h2 : fmod (2 * π) angle < angle := by
    unfold fmod
    have := Int.lt_floor_add_one (2 * π / angle)
    rw [div_lt_iff₀ h0] at this
    linarith
  have h3 : fmod (2 * π) angle ≠ 0 := by
    intro hc
    unfold fmod at hc
    apply h (⌊2 * π / angle⌋).toNat
    have : ((⌊2 * π / angle⌋).toNat : ℝ) = (⌊2 * π / angle⌋ : ℝ) := by exact_mod_cast Int.toNat_of_nonneg hfl
    rw [this]
    linarith
  have h1' : 0 < fmod (2 * π) angle := lt_of_le_of_ne h1 (Ne.symm h3)
  set φ := fmod (2 * π) angle
  have hca : 0 < cos (1 / 2 * angle) := cos_pos_of_mem_Ioo ⟨by linarith, by linarith⟩
  have hlt : cos (1 / 2 * angle) < cos (1 / 2 * angle - φ) := by
    rw [← cos_abs (1 / 2 * angle - φ)]
    apply cos_lt_cos_of_nonneg_of_le_pi (abs_nonneg _) (by linarith)
    rw [abs_lt]
    constructor <;> linarith
  have hf : 1 < cos (1 / 2 * angle - φ) / cos (1 / 2 * angle) := by
    rw [lt_div_iff₀ hca]
    linarith
  rw [e]
  unfold dist2
  dsimp only
  have : s < s * (cos (1 / 2 * angle - φ) / cos (1 / 2 * angle)) := by nlinarith
  nlinarith

/-- **C39, two sectors, refuted**: both elements of the coarse full ring are flat. -/
theorem C39_two_wrong (r R : ℝ) (i : ℕ) (hi : i < 2) (ξ η : ℝ) : jac (coarse r R (sectorAngle (2 * π) 2) (numRing (2 * π) 2) i) ξ η = 0 := by
  rw [coarse_patch r R _ 2 i (by norm_num) hi]
  have hs : sectorAngle (2 * π) 2 = π := by
    unfold sectorAngle limited
    rw [min_self]
    push_cast
    ring
  rw [hs]
  have e : patch π i r R 0 1 = annular r R (π * i) (π * (i + 1 : ℕ)) := by
    unfold patch annular chord smul dir
    simp
  rw [e, jac_annular, show π * ((i + 1 : ℕ) : ℝ) - π * i = π by push_cast; ring, sin_pi, mul_zero]

/-- **C39, one sector, refuted**: the only element of the full ring uses two vertices twice. -/
theorem C39_one_wrong : elem (numRing (2 * π) 1) 0 = [0, 1, 1, 0] := by
  have : numRing (2 * π) 1 = 1 := by
    unfold numRing limited
    rw [min_self, if_pos rfl]
  rw [this]
  rfl

/-! ### Examples -/

/-- The default ring, and a quarter ring of eight sectors, can be built. -/
example : Good (2 * π) 8 ∧ Good (π / 2) 8 := by
  refine ⟨C39_full _ 8 le_rfl (by norm_num), by norm_num, by linarith [pi_pos], ?_, 32, ?_⟩
  · unfold sectorAngle limited
    rw [min_eq_left (by linarith [pi_pos])]
    push_cast
    linarith [pi_pos]
  · unfold sectorAngle limited
    rw [min_eq_left (by linarith [pi_pos])]
    push_cast
    ring

/-- Sectors of angle `4π/5` (one or two of them) do not divide the full angle: such a ring is deformed wrongly. -/
example : ∀ m : ℕ, 2 * π ≠ m * (4 * π / 5) := by
  intro m h
  have hp := pi_pos
  have h2 : (m : ℝ) = 5 / 2 := by
    field_simp at h
    linarith
  have h3 : (2 * m : ℝ) = 5 := by linarith
  have h4 : 2 * m = 5 := by exact_mod_cast h3
  omega

end Serac.C39
