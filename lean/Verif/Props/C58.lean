import Verif.Model.Hcurl
import Verif.Props.C42
import Verif.Props.C17
import Verif.Props.C18
import Mathlib.Analysis.Calculus.Deriv.Pi
import Mathlib.Analysis.Calculus.Deriv.Prod
/-!
# C58: Hcurl elements on quadrilaterals and hexahedra

Spec.  The field of a vector of dofs is the sum over all dofs of dof times shape function; its curl is defined by derivatives.  Integration of `(s, c)` against
dof `a` is the sum over all points of weight times `s · φ_a + c · curl φ_a`.
-/

noncomputable section
namespace Serac.C58
open Serac.SF (contract2 contract3 sumTo)
open Serac.Hcurl Serac.C42 Finset

variable {R : Type} [CommRing R]

/-- Double sum over a flat index. -/
theorem flat2 (m n : ℕ) (F : ℕ → R) : ∑ a ∈ range (m * n), F a = ∑ j ∈ range m, ∑ i ∈ range n, F (j * n + i) := sum_flat m n F

theorem flat3 (l m n : ℕ) (F : ℕ → R) : ∑ a ∈ range (l * m * n), F a = ∑ k ∈ range l, ∑ j ∈ range m, ∑ i ∈ range n, F ((k * m + j) * n + i) := by
  rw [sum_flat, sum_flat]

/-! ### Quadrilaterals -/

theorem quad_sum (r : Rule R) (F : ℕ → R) : ∑ a ∈ range (2 * Quad.per r), F a =
    (∑ j ∈ range (r.p + 1), ∑ i ∈ range r.p, F (j * r.p + i)) + ∑ j ∈ range r.p, ∑ i ∈ range (r.p + 1), F (Quad.per r + (j * (r.p + 1) + i)) := by
  rw [two_mul, sum_range_add]
  congr 1
  · rw [Quad.per, mul_comm r.p, flat2]
  · rw [Quad.per, flat2]

omit [CommRing R] in
theorem quad_lt (r : Rule R) {i j : ℕ} (hi : i < r.p) (hj : j < r.p + 1) : j * r.p + i < Quad.per r := by
  rw [Quad.per]
  nlinarith

theorem quad_x (r : Rule R) (x y : R) {i j : ℕ} (hi : i < r.p) (hj : j < r.p + 1) :
    Quad.shape r x y (j * r.p + i) 0 = r.f i x * r.g j y ∧ Quad.shape r x y (j * r.p + i) 1 = 0 ∧ Quad.shapeCurl r x y (j * r.p + i) = -(r.f i x * r.dg j y) := by
  simp only [Quad.shape, Quad.shapeCurl, if_pos (quad_lt r hi hj), div_flat j hi, mod_flat j hi, neg_mul, and_self]

theorem quad_y (r : Rule R) (x y : R) {i : ℕ} (j : ℕ) (hi : i < r.p + 1) :
    Quad.shape r x y (Quad.per r + (j * (r.p + 1) + i)) 0 = 0 ∧ Quad.shape r x y (Quad.per r + (j * (r.p + 1) + i)) 1 = r.g i x * r.f j y ∧
    Quad.shapeCurl r x y (Quad.per r + (j * (r.p + 1) + i)) = r.dg i x * r.f j y := by
  have h : ¬ Quad.per r + (j * (r.p + 1) + i) < Quad.per r := by omega
  simp only [Quad.shape, Quad.shapeCurl, if_neg h, add_tsub_cancel_left, div_flat j hi, mod_flat j hi, and_self]

/-- **Quadrilateral, values and curls** at every point. -/
theorem C58_quad_interpolate (r : Rule R) (X : ℕ → R) (Q : ℕ) :
    (∀ k < 2, (Quad.interpolate r X).value Q k = ∑ a ∈ range (2 * Quad.per r), X a * Quad.shape r (r.pt (Q % r.q)) (r.pt (Q / r.q)) a k) ∧
    (Quad.interpolate r X).curl Q = ∑ a ∈ range (2 * Quad.per r), X a * Quad.shapeCurl r (r.pt (Q % r.q)) (r.pt (Q / r.q)) a := by
  have hx : ∀ (k : ℕ) (G : ℕ → ℕ → R), (∀ i < r.p, ∀ j < r.p + 1, Quad.shape r (r.pt (Q % r.q)) (r.pt (Q / r.q)) (j * r.p + i) k = G j i) →
      ∑ j ∈ range (r.p + 1), ∑ i ∈ range r.p, X (j * r.p + i) * Quad.shape r (r.pt (Q % r.q)) (r.pt (Q / r.q)) (j * r.p + i) k =
        ∑ j ∈ range (r.p + 1), ∑ i ∈ range r.p, X (j * r.p + i) * G j i := fun k G h =>
    sum_congr rfl fun j hj => sum_congr rfl fun i hi => by rw [h i (mem_range.1 hi) j (mem_range.1 hj)]
  have hy : ∀ (k : ℕ) (G : ℕ → ℕ → R), (∀ i < r.p + 1, ∀ j < r.p, Quad.shape r (r.pt (Q % r.q)) (r.pt (Q / r.q)) (Quad.per r + (j * (r.p + 1) + i)) k = G j i) →
      ∑ j ∈ range r.p, ∑ i ∈ range (r.p + 1), X (Quad.per r + (j * (r.p + 1) + i)) *
        Quad.shape r (r.pt (Q % r.q)) (r.pt (Q / r.q)) (Quad.per r + (j * (r.p + 1) + i)) k =
        ∑ j ∈ range r.p, ∑ i ∈ range (r.p + 1), X (Quad.per r + (j * (r.p + 1) + i)) * G j i := fun k G h =>
    sum_congr rfl fun j hj => sum_congr rfl fun i hi => by rw [h i (mem_range.1 hi) j (mem_range.1 hj)]
  refine ⟨fun k hk => ?_, ?_⟩
  · obtain rfl | rfl : k = 0 ∨ k = 1 := by omega
    · rw [quad_sum, hx 0 _ fun i hi j hj => (quad_x r _ _ hi hj).1, hy 0 (fun _ _ => 0) fun i hi j _ => (quad_y r _ _ j hi).1]
      simp only [mul_zero, sum_const_zero, add_zero]
      simp only [Quad.interpolate, contract2, sumTo_eq]
      exact sum_pull2 _ _ _ _ _ _ fun j i => by simp only [Rule.B1, Rule.B2]; ring
    · rw [quad_sum, hx 1 (fun _ _ => 0) fun i hi j hj => (quad_x r _ _ hi hj).2.1, hy 1 _ fun i hi j _ => (quad_y r _ _ j hi).2.1]
      simp only [mul_zero, sum_const_zero, zero_add]
      simp only [Quad.interpolate, contract2, sumTo_eq]
      rw [sum_comm]
      exact sum_pull2 _ _ (fun i j => X (Quad.per r + (j * (r.p + 1) + i))) _ _ _ fun j i => by simp only [Rule.B1, Rule.B2]; ring
  · rw [quad_sum]
    have h1 : ∑ j ∈ range (r.p + 1), ∑ i ∈ range r.p, X (j * r.p + i) * Quad.shapeCurl r (r.pt (Q % r.q)) (r.pt (Q / r.q)) (j * r.p + i) =
        -∑ j ∈ range (r.p + 1), ∑ i ∈ range r.p, X (j * r.p + i) * (r.f i (r.pt (Q % r.q)) * r.dg j (r.pt (Q / r.q))) := by
      rw [← sum_neg_distrib]
      refine sum_congr rfl fun j hj => ?_
      rw [← sum_neg_distrib]
      refine sum_congr rfl fun i hi => ?_
      rw [(quad_x r _ _ (mem_range.1 hi) (mem_range.1 hj)).2.2, mul_neg]
    have h2 : ∑ j ∈ range r.p, ∑ i ∈ range (r.p + 1), X (Quad.per r + (j * (r.p + 1) + i)) *
        Quad.shapeCurl r (r.pt (Q % r.q)) (r.pt (Q / r.q)) (Quad.per r + (j * (r.p + 1) + i)) =
        ∑ i ∈ range (r.p + 1), ∑ j ∈ range r.p, X (Quad.per r + (j * (r.p + 1) + i)) * (r.dg i (r.pt (Q % r.q)) * r.f j (r.pt (Q / r.q))) := by
      rw [sum_comm]
      exact sum_congr rfl fun i hi => sum_congr rfl fun j _ => by rw [(quad_y r _ _ j (mem_range.1 hi)).2.2]
    rw [h1, h2]
    simp only [Quad.interpolate, contract2, sumTo_eq]
    rw [zero_sub]
    congr 1
    · congr 1
      exact sum_pull2 _ _ _ _ _ _ fun j i => by simp only [Rule.B1, Rule.G2]; ring
    · exact sum_pull2 _ _ (fun i j => X (Quad.per r + (j * (r.p + 1) + i))) _ _ _ fun j i => by simp only [Rule.B1, Rule.G2]; ring

/-- **Quadrilateral, integration** against every dof. -/
theorem C58_quad_integrate (r : Rule R) (d : Quad.Data R) (a : ℕ) :
    Quad.integrate r d a = ∑ Q ∈ range (r.q * r.q), r.wt (Q % r.q) * r.wt (Q / r.q) *
      ((∑ k ∈ range 2, d.value Q k * Quad.shape r (r.pt (Q % r.q)) (r.pt (Q / r.q)) a k) + d.curl Q * Quad.shapeCurl r (r.pt (Q % r.q)) (r.pt (Q / r.q)) a) := by
  rw [sum_flat2 r.q (fun Q y x => r.wt x * r.wt y * ((∑ k ∈ range 2, d.value Q k * Quad.shape r (r.pt x) (r.pt y) a k) +
    d.curl Q * Quad.shapeCurl r (r.pt x) (r.pt y) a))]
  by_cases h : a < Quad.per r
  · simp only [Quad.integrate, Quad.shape, Quad.shapeCurl, if_pos h, contract2, sumTo_eq, sum_range_succ, range_zero, sum_empty]
    rw [sum_comm]
    refine sum_congr rfl fun x _ => ?_
    rw [← sum_sub_distrib, sum_mul]
    refine sum_congr rfl fun y _ => ?_
    simp only [Rule.B1w, Rule.B2w, Rule.G2w]
    ring
  · simp only [Quad.integrate, Quad.shape, Quad.shapeCurl, if_neg h, contract2, sumTo_eq, sum_range_succ, range_zero, sum_empty]
    refine sum_congr rfl fun y _ => ?_
    rw [← sum_add_distrib, sum_mul]
    refine sum_congr rfl fun x _ => ?_
    simp only [Rule.B1w, Rule.B2w, Rule.G2w]
    ring

/-- **Quadrilateral, transpose.** -/
theorem C58_quad_transpose (r : Rule R) (d : Quad.Data R) (X : ℕ → R) :
    ∑ a ∈ range (2 * Quad.per r), Quad.integrate r d a * X a = ∑ Q ∈ range (r.q * r.q), r.wt (Q % r.q) * r.wt (Q / r.q) *
      ((∑ k ∈ range 2, d.value Q k * (Quad.interpolate r X).value Q k) + d.curl Q * (Quad.interpolate r X).curl Q) := by
  simp only [C58_quad_integrate, sum_mul]
  rw [sum_comm]
  refine sum_congr rfl fun Q _ => ?_
  rw [(C58_quad_interpolate r X Q).2]
  have h : ∑ k ∈ range 2, d.value Q k * (Quad.interpolate r X).value Q k =
      ∑ k ∈ range 2, d.value Q k * ∑ a ∈ range (2 * Quad.per r), X a * Quad.shape r (r.pt (Q % r.q)) (r.pt (Q / r.q)) a k :=
    sum_congr rfl fun k hk => by rw [(C58_quad_interpolate r X Q).1 k (mem_range.1 hk)]
  rw [h]
  simp only [sum_range_succ, range_zero, sum_empty, mul_add, mul_sum, ← sum_add_distrib, zero_add]
  refine sum_congr rfl fun a _ => ?_
  ring

theorem unit_sum {n j : ℕ} (hj : j < n) (g : ℕ → R) : ∑ a ∈ range n, unit j a * g a = g j := by simp [unit, hj]

/-- **Quadrilateral, columns**: applying the derivative blocks to shape function `j` is applying them to value and curl of the unit vector `j`, whatever is
    stored beyond the rows of the table. -/
theorem C58_quad_column (r : Rule R) (junk : ℕ → ℕ → R) (j : ℕ) (hj : j < 2 * Quad.per r) (d00 : ℕ → ℕ → ℕ → R) (d01 d10 : ℕ → ℕ → R) (d11 : ℕ → R) (Q : ℕ) :
    let u := Quad.interpolate r (unit j)
    (∀ m, (Quad.applyShape r junk j d00 d01 d10 d11).value Q m = (∑ k ∈ range 2, d00 Q m k * u.value Q k) + d01 Q m * u.curl Q) ∧
    (Quad.applyShape r junk j d00 d01 d10 d11).curl Q = (∑ k ∈ range 2, d10 Q k * u.value Q k) + d11 Q * u.curl Q := by
  intro u
  have h0 : u.value Q 0 = Quad.shape r (r.pt (Q % r.q)) (r.pt (Q / r.q)) j 0 := by
    rw [show u.value Q 0 = _ from (C58_quad_interpolate r (unit j) Q).1 0 (by norm_num), unit_sum hj]
  have h1 : u.value Q 1 = Quad.shape r (r.pt (Q % r.q)) (r.pt (Q / r.q)) j 1 := by
    rw [show u.value Q 1 = _ from (C58_quad_interpolate r (unit j) Q).1 1 (by norm_num), unit_sum hj]
  have h2 : u.curl Q = Quad.shapeCurl r (r.pt (Q % r.q)) (r.pt (Q / r.q)) j := by
    rw [show u.curl Q = _ from (C58_quad_interpolate r (unit j) Q).2, unit_sum hj]
  have hper : (r.p + 1) * r.p = Quad.per r := by rw [Quad.per, mul_comm]
  have hp : 0 < r.p := by
    by_contra h
    rw [Quad.per, show r.p = 0 by omega] at hj
    omega
  simp only [sum_range_succ, range_zero, sum_empty, zero_add, h0, h1, h2, Quad.applyShape, Quad.readB1, Quad.shape, Quad.shapeCurl, sumTo_eq, hper]
  by_cases h : j < Quad.per r
  · have hd : j / Quad.per r = 0 := Nat.div_eq_of_lt h
    simp only [if_pos h, hd, if_true, if_pos (Nat.mod_lt j hp), show ¬ (0 : ℕ) = 1 by norm_num, if_false, Rule.B1, Rule.B2, Rule.G2]
    refine ⟨fun m => ?_, ?_⟩ <;> ring
  · have hlt : j - Quad.per r < Quad.per r := by omega
    have hd : j / Quad.per r = 1 := by
      rw [Nat.div_eq_iff (by omega)]; omega
    have hm : j % Quad.per r = j - Quad.per r := by
      rw [Nat.mod_eq_sub_mod (by omega), Nat.mod_eq_of_lt hlt]
    have hy : (j - Quad.per r) / (r.p + 1) < r.p := by
      rw [Nat.div_lt_iff_lt_mul (by omega)]
      exact hlt
    simp only [if_neg h, hd, hm, if_pos hy, show ¬ (1 : ℕ) = 0 by norm_num, if_false, if_true, Rule.B1, Rule.B2, Rule.G2]
    refine ⟨fun m => ?_, ?_⟩ <;> ring

omit [CommRing R] in
/-- **Reading beyond the table.**  For every order and every rule with as many points as nodes, `batch_apply_shape_fn` reads one past the last entry of `B1`. -/
theorem C58_quad_read_wrong (r : Rule R) (hp : 0 < r.p) (hq : 0 < r.q) :
    ∃ j < 2 * Quad.per r, ∃ Q < r.q * r.q, ∃ s ∈ Quad.reads r j Q, s.1 * r.p + s.2 = r.q * r.p := by
  have hper : (r.p + 1) * r.p = Quad.per r := by rw [Quad.per, mul_comm]
  refine ⟨r.p * r.p, ?_, (r.q - 1) * r.q, ?_, ((r.q - 1) * r.q / r.q, r.p), ?_, ?_⟩
  · rw [Quad.per]; nlinarith
  · exact Nat.mul_lt_mul_of_pos_right (by omega) hq
  · have hd : r.p * r.p / ((r.p + 1) * r.p) = 0 := Nat.div_eq_of_lt (by nlinarith)
    simp only [Quad.reads, hd, if_true, List.mem_cons, Prod.mk.injEq, List.not_mem_nil, or_false]
    right
    simp [Nat.mul_div_cancel _ hp]
  · rw [Nat.mul_div_cancel _ hq]
    show (r.q - 1) * r.p + r.p = r.q * r.p
    rw [← Nat.succ_mul]
    congr 1
    omega

/-! ### Hexahedra -/

theorem hex_sum (r : Rule R) (F : ℕ → R) : ∑ a ∈ range (3 * Hex.per r), F a =
    (∑ k ∈ range (r.p + 1), ∑ j ∈ range (r.p + 1), ∑ i ∈ range r.p, F ((k * (r.p + 1) + j) * r.p + i)) +
    (∑ k ∈ range (r.p + 1), ∑ j ∈ range r.p, ∑ i ∈ range (r.p + 1), F (Hex.per r + ((k * r.p + j) * (r.p + 1) + i))) +
    ∑ k ∈ range r.p, ∑ j ∈ range (r.p + 1), ∑ i ∈ range (r.p + 1), F (2 * Hex.per r + ((k * (r.p + 1) + j) * (r.p + 1) + i)) := by
  rw [show 3 * Hex.per r = Hex.per r + Hex.per r + Hex.per r by ring, sum_range_add, sum_range_add]
  congr 1
  · congr 1
    · rw [Hex.per, flat3]
    · conv_lhs => rw [show range (Hex.per r) = range ((r.p + 1) * r.p * (r.p + 1)) by rw [Hex.per]; ring_nf]
      rw [flat3]
  · conv_lhs => rw [show range (Hex.per r) = range (r.p * (r.p + 1) * (r.p + 1)) by rw [Hex.per]; ring_nf]
    rw [flat3]
    simp only [two_mul]

omit [CommRing R] in
theorem hex_lt (r : Rule R) {i j k : ℕ} (hi : i < r.p) (hj : j < r.p + 1) (hk : k < r.p + 1) : (k * (r.p + 1) + j) * r.p + i < Hex.per r := by
  rw [Hex.per]
  have : k * (r.p + 1) + j + 1 ≤ (r.p + 1) * (r.p + 1) := by nlinarith
  nlinarith

omit [CommRing R] in
theorem hex_lt2 (r : Rule R) {i j k : ℕ} (hi : i < r.p + 1) (hj : j < r.p) (hk : k < r.p + 1) : (k * r.p + j) * (r.p + 1) + i < Hex.per r := by
  have hper : Hex.per r = (r.p + 1) * r.p * (r.p + 1) := by rw [Hex.per]; ring
  rw [hper]
  have : k * r.p + j + 1 ≤ (r.p + 1) * r.p := by nlinarith
  nlinarith

theorem hex_x (r : Rule R) (x y z : R) {i j k : ℕ} (hi : i < r.p) (hj : j < r.p + 1) (hk : k < r.p + 1) :
    let a := (k * (r.p + 1) + j) * r.p + i
    (Hex.shape r x y z a 0 = r.f i x * r.g j y * r.g k z ∧ Hex.shape r x y z a 1 = 0 ∧ Hex.shape r x y z a 2 = 0) ∧
    Hex.shapeCurl r x y z a 0 = 0 ∧ Hex.shapeCurl r x y z a 1 = r.f i x * r.g j y * r.dg k z ∧ Hex.shapeCurl r x y z a 2 = -(r.f i x * r.dg j y * r.g k z) := by
  intro a
  simp only [a, Hex.shape, Hex.shapeCurl, if_pos (hex_lt r hi hj hk), div_flat _ hi, mod_flat _ hi, div_flat _ hj, mod_flat _ hj, neg_mul, and_self]

theorem hex_y (r : Rule R) (x y z : R) {i j k : ℕ} (hi : i < r.p + 1) (hj : j < r.p) (hk : k < r.p + 1) :
    let a := Hex.per r + ((k * r.p + j) * (r.p + 1) + i)
    (Hex.shape r x y z a 0 = 0 ∧ Hex.shape r x y z a 1 = r.g i x * r.f j y * r.g k z ∧ Hex.shape r x y z a 2 = 0) ∧
    Hex.shapeCurl r x y z a 0 = -(r.g i x * r.f j y * r.dg k z) ∧ Hex.shapeCurl r x y z a 1 = 0 ∧ Hex.shapeCurl r x y z a 2 = r.dg i x * r.f j y * r.g k z := by
  intro a
  have h1 : ¬ a < Hex.per r := by simp [a]
  have h2 : a < 2 * Hex.per r := by have := hex_lt2 r hi hj hk; omega
  have h3 : a - Hex.per r = (k * r.p + j) * (r.p + 1) + i := by simp [a]
  simp only [Hex.shape, Hex.shapeCurl, if_neg h1, if_pos h2, h3, div_flat _ hi, mod_flat _ hi, div_flat _ hj, mod_flat _ hj, neg_mul, and_self]

theorem hex_z (r : Rule R) (x y z : R) {i j : ℕ} (k : ℕ) (hi : i < r.p + 1) (hj : j < r.p + 1) :
    let a := 2 * Hex.per r + ((k * (r.p + 1) + j) * (r.p + 1) + i)
    (Hex.shape r x y z a 0 = 0 ∧ Hex.shape r x y z a 1 = 0 ∧ Hex.shape r x y z a 2 = r.g i x * r.g j y * r.f k z) ∧
    Hex.shapeCurl r x y z a 0 = r.g i x * r.dg j y * r.f k z ∧ Hex.shapeCurl r x y z a 1 = -(r.dg i x * r.g j y * r.f k z) ∧ Hex.shapeCurl r x y z a 2 = 0 := by
  intro a
  have h1 : ¬ a < Hex.per r := by omega
  have h2 : ¬ a < 2 * Hex.per r := by omega
  have h3 : a - 2 * Hex.per r = (k * (r.p + 1) + j) * (r.p + 1) + i := by simp [a]
  simp only [Hex.shape, Hex.shapeCurl, if_neg h1, if_neg h2, h3, div_flat _ hi, mod_flat _ hi, div_flat _ hj, mod_flat _ hj, neg_mul, and_self]

theorem rot1 (s t v : Finset ℕ) (g : ℕ → ℕ → ℕ → R) : ∑ k ∈ s, ∑ j ∈ t, ∑ i ∈ v, g k j i = ∑ i ∈ v, ∑ k ∈ s, ∑ j ∈ t, g k j i := by
  rw [sum_comm' (s := v) (t := fun _ => s) (t' := s) (s' := fun _ => v) (by simp [and_comm])]
  exact sum_congr rfl fun k _ => sum_comm

theorem rot2 (s t v : Finset ℕ) (g : ℕ → ℕ → ℕ → R) : ∑ k ∈ s, ∑ j ∈ t, ∑ i ∈ v, g k j i = ∑ j ∈ t, ∑ i ∈ v, ∑ k ∈ s, g k j i := by
  rw [rot1 t v s fun j i k => g k j i]

/-- A weighted sum over all dofs, by direction. -/
theorem hex_dofs (r : Rule R) (X : ℕ → R) (S : ℕ → R) (Gx Gy Gz : ℕ → ℕ → ℕ → R)
    (hx : ∀ i < r.p, ∀ j < r.p + 1, ∀ k < r.p + 1, S ((k * (r.p + 1) + j) * r.p + i) = Gx k j i)
    (hy : ∀ i < r.p + 1, ∀ j < r.p, ∀ k < r.p + 1, S (Hex.per r + ((k * r.p + j) * (r.p + 1) + i)) = Gy k j i)
    (hz : ∀ i < r.p + 1, ∀ j < r.p + 1, ∀ k < r.p, S (2 * Hex.per r + ((k * (r.p + 1) + j) * (r.p + 1) + i)) = Gz k j i) :
    ∑ a ∈ range (3 * Hex.per r), X a * S a =
      (∑ k ∈ range (r.p + 1), ∑ j ∈ range (r.p + 1), ∑ i ∈ range r.p, X ((k * (r.p + 1) + j) * r.p + i) * Gx k j i) +
      (∑ i ∈ range (r.p + 1), ∑ k ∈ range (r.p + 1), ∑ j ∈ range r.p, X (Hex.per r + ((k * r.p + j) * (r.p + 1) + i)) * Gy k j i) +
      ∑ j ∈ range (r.p + 1), ∑ i ∈ range (r.p + 1), ∑ k ∈ range r.p, X (2 * Hex.per r + ((k * (r.p + 1) + j) * (r.p + 1) + i)) * Gz k j i := by
  rw [hex_sum, ← rot1 (range (r.p + 1)) (range r.p) (range (r.p + 1)) fun k j i => X (Hex.per r + ((k * r.p + j) * (r.p + 1) + i)) * Gy k j i,
    ← rot2 (range r.p) (range (r.p + 1)) (range (r.p + 1)) fun k j i => X (2 * Hex.per r + ((k * (r.p + 1) + j) * (r.p + 1) + i)) * Gz k j i]
  congr 1
  · congr 1
    · exact sum_congr rfl fun k hk => sum_congr rfl fun j hj => sum_congr rfl fun i hi => by
        rw [hx i (mem_range.1 hi) j (mem_range.1 hj) k (mem_range.1 hk)]
    · exact sum_congr rfl fun k hk => sum_congr rfl fun j hj => sum_congr rfl fun i hi => by
        rw [hy i (mem_range.1 hi) j (mem_range.1 hj) k (mem_range.1 hk)]
  · exact sum_congr rfl fun k hk => sum_congr rfl fun j hj => sum_congr rfl fun i hi => by
      rw [hz i (mem_range.1 hi) j (mem_range.1 hj) k (mem_range.1 hk)]

/-- Coordinates of point `Q`. -/
def px (r : Rule R) (Q : ℕ) : R := r.pt (Q % r.q)
def py (r : Rule R) (Q : ℕ) : R := r.pt (Q / r.q % r.q)
def pz (r : Rule R) (Q : ℕ) : R := r.pt (Q / r.q / r.q)

theorem neg3 (s t v : Finset ℕ) (X g : ℕ → ℕ → ℕ → R) : ∑ k ∈ s, ∑ j ∈ t, ∑ i ∈ v, X k j i * -g k j i = -∑ k ∈ s, ∑ j ∈ t, ∑ i ∈ v, X k j i * g k j i := by
  simp only [mul_neg, sum_neg_distrib]

/-- **Hexahedron, values and curls** at every point. -/
theorem C58_hex_interpolate (r : Rule R) (X : ℕ → R) (Q : ℕ) (c : ℕ) (hc : c < 3) :
    (Hex.interpolate r X).value Q c = ∑ a ∈ range (3 * Hex.per r), X a * Hex.shape r (px r Q) (py r Q) (pz r Q) a c ∧
    (Hex.interpolate r X).curl Q c = ∑ a ∈ range (3 * Hex.per r), X a * Hex.shapeCurl r (px r Q) (py r Q) (pz r Q) a c := by
  obtain rfl | rfl | rfl : c = 0 ∨ c = 1 ∨ c = 2 := by omega
  · constructor
    · rw [hex_dofs r X _ _ (fun _ _ _ => 0) (fun _ _ _ => 0) (fun i hi j hj k hk => (hex_x r _ _ _ hi hj hk).1.1)
        (fun i hi j hj k hk => (hex_y r _ _ _ hi hj hk).1.1) (fun i hi j hj k _ => (hex_z r _ _ _ k hi hj).1.1)]
      simp only [mul_zero, sum_const_zero, add_zero]
      simp only [Hex.interpolate, contract3, sumTo_eq]
      exact sum_pull3 _ _ _ _ _ _ _ _ fun k j i => by simp only [Rule.B1, Rule.B2, px, py, pz]; ring
    · rw [hex_dofs r X _ (fun _ _ _ => 0) _ _ (fun i hi j hj k hk => (hex_x r _ _ _ hi hj hk).2.1)
        (fun i hi j hj k hk => (hex_y r _ _ _ hi hj hk).2.1) (fun i hi j hj k _ => (hex_z r _ _ _ k hi hj).2.1)]
      simp only [mul_zero, sum_const_zero, zero_add]
      rw [neg3 _ _ _ (fun i k j => X (Hex.per r + ((k * r.p + j) * (r.p + 1) + i))) (fun i k j => r.g i (px r Q) * r.f j (py r Q) * r.dg k (pz r Q))]
      simp only [Hex.interpolate, contract3, sumTo_eq]
      rw [zero_sub]
      congr 1
      · congr 1
        exact sum_pull3 _ _ _ (fun i k j => X (Hex.per r + ((k * r.p + j) * (r.p + 1) + i))) _ _ _ _ fun i k j => by simp only [Rule.B1, Rule.B2, Rule.G2, px, py, pz]; ring
      · exact sum_pull3 _ _ _ (fun j i k => X (2 * Hex.per r + ((k * (r.p + 1) + j) * (r.p + 1) + i))) _ _ _ _ fun j i k => by simp only [Rule.B1, Rule.B2, Rule.G2, px, py, pz]; ring
  · constructor
    · rw [hex_dofs r X _ (fun _ _ _ => 0) _ (fun _ _ _ => 0) (fun i hi j hj k hk => (hex_x r _ _ _ hi hj hk).1.2.1)
        (fun i hi j hj k hk => (hex_y r _ _ _ hi hj hk).1.2.1) (fun i hi j hj k _ => (hex_z r _ _ _ k hi hj).1.2.1)]
      simp only [mul_zero, sum_const_zero, add_zero, zero_add]
      simp only [Hex.interpolate, contract3, sumTo_eq]
      exact sum_pull3 _ _ _ (fun i k j => X (Hex.per r + ((k * r.p + j) * (r.p + 1) + i))) _ _ _ _ fun i k j => by simp only [Rule.B1, Rule.B2, px, py, pz]; ring
    · rw [hex_dofs r X _ _ (fun _ _ _ => 0) _ (fun i hi j hj k hk => (hex_x r _ _ _ hi hj hk).2.2.1)
        (fun i hi j hj k hk => (hex_y r _ _ _ hi hj hk).2.2.1) (fun i hi j hj k _ => (hex_z r _ _ _ k hi hj).2.2.1)]
      simp only [mul_zero, sum_const_zero, add_zero]
      rw [neg3 _ _ _ (fun j i k => X (2 * Hex.per r + ((k * (r.p + 1) + j) * (r.p + 1) + i))) (fun j i k => r.dg i (px r Q) * r.g j (py r Q) * r.f k (pz r Q)), ← sub_eq_add_neg]
      simp only [Hex.interpolate, contract3, sumTo_eq]
      rw [zero_add]
      congr 1
      · exact sum_pull3 _ _ _ (fun k j i => X ((k * (r.p + 1) + j) * r.p + i)) _ _ _ _ fun k j i => by simp only [Rule.B1, Rule.B2, Rule.G2, px, py, pz]; ring
      · exact sum_pull3 _ _ _ (fun j i k => X (2 * Hex.per r + ((k * (r.p + 1) + j) * (r.p + 1) + i))) _ _ _ _ fun j i k => by simp only [Rule.B1, Rule.B2, Rule.G2, px, py, pz]; ring
  · constructor
    · rw [hex_dofs r X _ (fun _ _ _ => 0) (fun _ _ _ => 0) _ (fun i hi j hj k hk => (hex_x r _ _ _ hi hj hk).1.2.2)
        (fun i hi j hj k hk => (hex_y r _ _ _ hi hj hk).1.2.2) (fun i hi j hj k _ => (hex_z r _ _ _ k hi hj).1.2.2)]
      simp only [mul_zero, sum_const_zero, zero_add]
      simp only [Hex.interpolate, contract3, sumTo_eq]
      exact sum_pull3 _ _ _ (fun j i k => X (2 * Hex.per r + ((k * (r.p + 1) + j) * (r.p + 1) + i))) _ _ _ _ fun j i k => by simp only [Rule.B1, Rule.B2, px, py, pz]; ring
    · rw [hex_dofs r X _ _ _ (fun _ _ _ => 0) (fun i hi j hj k hk => (hex_x r _ _ _ hi hj hk).2.2.2)
        (fun i hi j hj k hk => (hex_y r _ _ _ hi hj hk).2.2.2) (fun i hi j hj k _ => (hex_z r _ _ _ k hi hj).2.2.2)]
      simp only [mul_zero, sum_const_zero, add_zero]
      rw [neg3 _ _ _ (fun k j i => X ((k * (r.p + 1) + j) * r.p + i)) (fun k j i => r.f i (px r Q) * r.dg j (py r Q) * r.g k (pz r Q))]
      simp only [Hex.interpolate, contract3, sumTo_eq]
      rw [zero_sub]
      congr 1
      · congr 1
        exact sum_pull3 _ _ _ (fun k j i => X ((k * (r.p + 1) + j) * r.p + i)) _ _ _ _ fun k j i => by simp only [Rule.B1, Rule.B2, Rule.G2, px, py, pz]; ring
      · exact sum_pull3 _ _ _ (fun i k j => X (Hex.per r + ((k * r.p + j) * (r.p + 1) + i))) _ _ _ _ fun i k j => by simp only [Rule.B1, Rule.B2, Rule.G2, px, py, pz]; ring

/-- Weight of point `Q`. -/
def wt3 (r : Rule R) (Q : ℕ) : R := r.wt (Q % r.q) * r.wt (Q / r.q % r.q) * r.wt (Q / r.q / r.q)

/-- **Hexahedron, integration** against every dof. -/
theorem C58_hex_integrate (r : Rule R) (d : Hex.Data R) (a : ℕ) :
    Hex.integrate r d a = ∑ Q ∈ range (r.q * r.q * r.q), wt3 r Q * ((∑ k ∈ range 3, d.value Q k * Hex.shape r (px r Q) (py r Q) (pz r Q) a k) +
      ∑ k ∈ range 3, d.curl Q k * Hex.shapeCurl r (px r Q) (py r Q) (pz r Q) a k) := by
  simp only [wt3, px, py, pz]
  rw [sum_flat3 r.q (fun Q z y x => r.wt x * r.wt y * r.wt z * ((∑ k ∈ range 3, d.value Q k * Hex.shape r (r.pt x) (r.pt y) (r.pt z) a k) +
    ∑ k ∈ range 3, d.curl Q k * Hex.shapeCurl r (r.pt x) (r.pt y) (r.pt z) a k))]
  by_cases h : a < Hex.per r
  · simp only [Hex.integrate, Hex.shape, Hex.shapeCurl, if_pos h, contract3, sumTo_eq, sum_range_succ, range_zero, sum_empty]
    rw [rot1]
    refine sum_congr rfl fun x _ => ?_
    rw [sum_comm, ← sum_sub_distrib, sum_mul]
    refine sum_congr rfl fun y _ => ?_
    rw [← sum_add_distrib, sum_mul, sum_mul, ← sum_sub_distrib, sum_mul]
    refine sum_congr rfl fun z _ => ?_
    simp only [Rule.B1w, Rule.B2w, Rule.G2w]
    ring
  · by_cases h' : a < 2 * Hex.per r
    · simp only [Hex.integrate, Hex.shape, Hex.shapeCurl, if_neg h, if_pos h', contract3, sumTo_eq, sum_range_succ, range_zero, sum_empty]
      rw [sum_comm]
      refine sum_congr rfl fun y _ => ?_
      rw [← sum_sub_distrib, sum_mul]
      refine sum_congr rfl fun z _ => ?_
      rw [← sum_add_distrib, sum_mul, sum_mul, ← sum_sub_distrib, sum_mul]
      refine sum_congr rfl fun x _ => ?_
      simp only [Rule.B1w, Rule.B2w, Rule.G2w]
      ring
    · simp only [Hex.integrate, Hex.shape, Hex.shapeCurl, if_neg h, if_neg h', contract3, sumTo_eq, sum_range_succ, range_zero, sum_empty]
      refine sum_congr rfl fun z _ => ?_
      rw [sum_comm, ← sum_sub_distrib, sum_mul]
      refine sum_congr rfl fun x _ => ?_
      rw [← sum_add_distrib, sum_mul, sum_mul, ← sum_sub_distrib, sum_mul]
      refine sum_congr rfl fun y _ => ?_
      simp only [Rule.B1w, Rule.B2w, Rule.G2w]
      ring

/-- **Hexahedron, transpose.** -/
theorem C58_hex_transpose (r : Rule R) (d : Hex.Data R) (X : ℕ → R) :
    ∑ a ∈ range (3 * Hex.per r), Hex.integrate r d a * X a = ∑ Q ∈ range (r.q * r.q * r.q), wt3 r Q *
      ((∑ k ∈ range 3, d.value Q k * (Hex.interpolate r X).value Q k) + ∑ k ∈ range 3, d.curl Q k * (Hex.interpolate r X).curl Q k) := by
  simp only [C58_hex_integrate, sum_mul]
  rw [sum_comm]
  refine sum_congr rfl fun Q _ => ?_
  have h : ∑ k ∈ range 3, d.value Q k * (Hex.interpolate r X).value Q k =
      ∑ k ∈ range 3, d.value Q k * ∑ a ∈ range (3 * Hex.per r), X a * Hex.shape r (px r Q) (py r Q) (pz r Q) a k :=
    sum_congr rfl fun k hk => by rw [(C58_hex_interpolate r X Q k (mem_range.1 hk)).1]
  have h' : ∑ k ∈ range 3, d.curl Q k * (Hex.interpolate r X).curl Q k =
      ∑ k ∈ range 3, d.curl Q k * ∑ a ∈ range (3 * Hex.per r), X a * Hex.shapeCurl r (px r Q) (py r Q) (pz r Q) a k :=
    sum_congr rfl fun k hk => by rw [(C58_hex_interpolate r X Q k (mem_range.1 hk)).2]
  rw [h, h']
  simp only [sum_range_succ, range_zero, sum_empty, mul_add, mul_sum, ← sum_add_distrib, zero_add]
  refine sum_congr rfl fun a _ => ?_
  ring

/-- **Hexahedron, columns.** -/
theorem C58_hex_column (r : Rule R) (j : ℕ) (hj : j < 3 * Hex.per r) (d00 d01 d10 d11 : ℕ → ℕ → ℕ → R) (Q : ℕ) (m : ℕ) :
    let u := Hex.interpolate r (unit j)
    (Hex.applyShape r j d00 d01 d10 d11).value Q m = (∑ k ∈ range 3, d00 Q m k * u.value Q k) + ∑ k ∈ range 3, d01 Q m k * u.curl Q k ∧
    (Hex.applyShape r j d00 d01 d10 d11).curl Q m = (∑ k ∈ range 3, d10 Q m k * u.value Q k) + ∑ k ∈ range 3, d11 Q m k * u.curl Q k := by
  intro u
  have hv : ∀ k < 3, u.value Q k = Hex.shape r (px r Q) (py r Q) (pz r Q) j k := fun k hk => by
    rw [show u.value Q k = _ from (C58_hex_interpolate r (unit j) Q k hk).1, unit_sum hj]
  have hc : ∀ k < 3, u.curl Q k = Hex.shapeCurl r (px r Q) (py r Q) (pz r Q) j k := fun k hk => by
    rw [show u.curl Q k = _ from (C58_hex_interpolate r (unit j) Q k hk).2, unit_sum hj]
  have hper : r.p * (r.p + 1) * (r.p + 1) = Hex.per r := by rw [Hex.per]; ring
  have hp : 0 < Hex.per r := by omega
  simp only [sum_range_succ, range_zero, sum_empty, zero_add, hv 0 (by norm_num), hv 1 (by norm_num), hv 2 (by norm_num), hc 0 (by norm_num), hc 1 (by norm_num),
    hc 2 (by norm_num), Hex.applyShape, Hex.shape, Hex.shapeCurl, sumTo_eq, hper, px, py, pz]
  by_cases h : j < Hex.per r
  · have hd : j / Hex.per r = 0 := Nat.div_eq_of_lt h
    have hm : j % Hex.per r = j := Nat.mod_eq_of_lt h
    simp only [if_pos h, hd, hm, Nat.mod_mul_right_div_self, ← Nat.div_div_eq_div_mul, Rule.B1, Rule.B2, Rule.G2, and_self]
  · by_cases h' : j < 2 * Hex.per r
    · have hd : j / Hex.per r = 1 := by rw [Nat.div_eq_iff hp]; omega
      have hm : j % Hex.per r = j - Hex.per r := by rw [Nat.mod_eq_sub_mod (by omega), Nat.mod_eq_of_lt (by omega)]
      have h1 : ∀ c : ℕ, c % (r.p * (r.p + 1)) / (r.p + 1) = c / (r.p + 1) % r.p := fun c => by rw [mul_comm r.p, Nat.mod_mul_right_div_self]
      have h2 : ∀ c : ℕ, c / (r.p * (r.p + 1)) = c / (r.p + 1) / r.p := fun c => by rw [mul_comm r.p, Nat.div_div_eq_div_mul]
      simp only [if_neg h, if_pos h', hd, hm, h1, h2, Rule.B1, Rule.B2, Rule.G2, and_self]
    · have hd : j / Hex.per r = 2 := by rw [Nat.div_eq_iff hp]; omega
      have hm : j % Hex.per r = j - 2 * Hex.per r := by
        rw [Nat.mod_eq_sub_mod (by omega), Nat.mod_eq_sub_mod (by omega), Nat.mod_eq_of_lt (by omega)]
        omega
      simp only [if_neg h, if_neg h', hd, hm, Nat.mod_mul_right_div_self, ← Nat.div_div_eq_div_mul, Rule.B1, Rule.B2, Rule.G2, and_self]

/-! ### The curl -/

/-- Spec: the field on the parent element. -/
def field2 (r : Rule ℝ) (X : ℕ → ℝ) (x y : ℝ) (k : ℕ) : ℝ := ∑ a ∈ range (2 * Quad.per r), X a * Quad.shape r x y a k
def field3 (r : Rule ℝ) (X : ℕ → ℝ) (x y z : ℝ) (k : ℕ) : ℝ := ∑ a ∈ range (3 * Hex.per r), X a * Hex.shape r x y z a k

/-- Spec: `dg` is the derivative of the closed functions. -/
def Derives (r : Rule ℝ) : Prop := ∀ j ≤ r.p, ∀ t, HasDerivAt (r.g j) (r.dg j t) t

omit [CommRing R] in
theorem div_le {p a : ℕ} (h : a < p * (p + 1)) : a / p ≤ p := by
  rw [mul_comm] at h
  have := (Nat.div_lt_iff_lt_mul (Nat.pos_of_ne_zero fun h0 => by simp [h0] at h)).2 h
  omega

theorem quad_shape_deriv (r : Rule ℝ) (hg : Derives r) (x y : ℝ) (a : ℕ) : ∃ E F,
    HasDerivAt (fun t => Quad.shape r t y a 1) E x ∧ HasDerivAt (fun t => Quad.shape r x t a 0) F y ∧ Quad.shapeCurl r x y a = E - F := by
  by_cases h : a < Quad.per r
  · refine ⟨0, r.f (a % r.p) x * r.dg (a / r.p) y, ?_, ?_, ?_⟩
    · simp only [Quad.shape, if_pos h]
      exact hasDerivAt_const _ _
    · simp only [Quad.shape, if_pos h]
      exact (hg _ (div_le h) y).const_mul _
    · simp only [Quad.shapeCurl, if_pos h]
      ring
  · refine ⟨r.dg ((a - Quad.per r) % (r.p + 1)) x * r.f ((a - Quad.per r) / (r.p + 1)) y, 0, ?_, ?_, ?_⟩
    · simp only [Quad.shape, if_neg h]
      exact (hg _ (Nat.lt_succ_iff.1 (Nat.mod_lt _ (Nat.succ_pos _))) x).mul_const _
    · simp only [Quad.shape, if_neg h]
      exact hasDerivAt_const _ _
    · simp only [Quad.shapeCurl, if_neg h]
      ring

/-- **Quadrilateral, the curl** is the curl of the field. -/
theorem C58_quad_curl (r : Rule ℝ) (hg : Derives r) (X : ℕ → ℝ) (x y : ℝ) : ∃ E F,
    HasDerivAt (fun t => field2 r X t y 1) E x ∧ HasDerivAt (fun t => field2 r X x t 0) F y ∧
    ∑ a ∈ range (2 * Quad.per r), X a * Quad.shapeCurl r x y a = E - F := by
  choose E F hE hF hc using quad_shape_deriv r hg x y
  refine ⟨∑ a ∈ range (2 * Quad.per r), X a * E a, ∑ a ∈ range (2 * Quad.per r), X a * F a, ?_, ?_, ?_⟩
  · exact HasDerivAt.fun_sum fun a _ => (hE a).const_mul (X a)
  · exact HasDerivAt.fun_sum fun a _ => (hF a).const_mul (X a)
  · rw [← sum_sub_distrib]
    exact sum_congr rfl fun a _ => by rw [hc a, mul_sub]

theorem hex_shape_deriv (r : Rule ℝ) (hg : Derives r) (x y z : ℝ) (a : ℕ) : ∃ D : ℕ → ℕ → ℝ,
    (∀ k < 3, k ≠ 0 → HasDerivAt (fun t => Hex.shape r t y z a k) (D k 0) x) ∧ (∀ k < 3, k ≠ 1 → HasDerivAt (fun t => Hex.shape r x t z a k) (D k 1) y) ∧
    (∀ k < 3, k ≠ 2 → HasDerivAt (fun t => Hex.shape r x y t a k) (D k 2) z) ∧
    Hex.shapeCurl r x y z a 0 = D 2 1 - D 1 2 ∧ Hex.shapeCurl r x y z a 1 = D 0 2 - D 2 0 ∧ Hex.shapeCurl r x y z a 2 = D 1 0 - D 0 1 := by
  have hmod : ∀ c, c % (r.p + 1) ≤ r.p := fun c => Nat.lt_succ_iff.1 (Nat.mod_lt _ (Nat.succ_pos _))
  by_cases h : a < Hex.per r
  · have hz : a / r.p / (r.p + 1) ≤ r.p := by
      have hp : 0 < r.p := Nat.pos_of_ne_zero fun h0 => by simp [Hex.per, h0] at h
      rw [Nat.div_div_eq_div_mul]
      refine Nat.lt_succ_iff.1 ((Nat.div_lt_iff_lt_mul (by positivity)).2 ?_)
      rw [Hex.per] at h
      calc a < _ := h
        _ = _ := by rw [Nat.succ_eq_add_one]; ring
    refine ⟨fun k l => if k = 0 then (if l = 1 then r.f (a % r.p) x * r.dg (a / r.p % (r.p + 1)) y * r.g (a / r.p / (r.p + 1)) z else
      r.f (a % r.p) x * r.g (a / r.p % (r.p + 1)) y * r.dg (a / r.p / (r.p + 1)) z) else 0, ?_, ?_, ?_, ?_⟩
    · intro k hk h0
      obtain rfl | rfl : k = 1 ∨ k = 2 := by omega
      all_goals simp only [Hex.shape, if_pos h]; exact hasDerivAt_const _ _
    · intro k hk h0
      obtain rfl | rfl : k = 0 ∨ k = 2 := by omega
      · simp only [Hex.shape, if_pos h]; exact ((hg _ (hmod _) y).const_mul _).mul_const _
      · simp only [Hex.shape, if_pos h]; exact hasDerivAt_const _ _
    · intro k hk h0
      obtain rfl | rfl : k = 0 ∨ k = 1 := by omega
      · simp only [Hex.shape, if_pos h]; exact (hg _ hz z).const_mul _
      · simp only [Hex.shape, if_pos h]; exact hasDerivAt_const _ _
    · simp [Hex.shapeCurl, if_pos h]
  · by_cases h' : a < 2 * Hex.per r
    · have hz : (a - Hex.per r) / (r.p + 1) / r.p ≤ r.p := by
        have h2 : a - Hex.per r < Hex.per r := by omega
        have hp : 0 < r.p := Nat.pos_of_ne_zero fun h0 => by simp [Hex.per, h0] at h2
        rw [Nat.div_div_eq_div_mul]
        refine Nat.lt_succ_iff.1 ((Nat.div_lt_iff_lt_mul (by positivity)).2 ?_)
        calc a - Hex.per r < _ := h2
          _ = _ := by rw [Hex.per, Nat.succ_eq_add_one]; ring
      refine ⟨fun k l => if k = 1 then (if l = 0 then r.dg ((a - Hex.per r) % (r.p + 1)) x * r.f ((a - Hex.per r) / (r.p + 1) % r.p) y * r.g ((a - Hex.per r) / (r.p + 1) / r.p) z else
        r.g ((a - Hex.per r) % (r.p + 1)) x * r.f ((a - Hex.per r) / (r.p + 1) % r.p) y * r.dg ((a - Hex.per r) / (r.p + 1) / r.p) z) else 0, ?_, ?_, ?_, ?_⟩
      · intro k hk h0
        obtain rfl | rfl : k = 1 ∨ k = 2 := by omega
        · simp only [Hex.shape, if_neg h, if_pos h']; exact ((hg _ (hmod _) x).mul_const _).mul_const _
        · simp only [Hex.shape, if_neg h, if_pos h']; exact hasDerivAt_const _ _
      · intro k hk h0
        obtain rfl | rfl : k = 0 ∨ k = 2 := by omega
        all_goals simp only [Hex.shape, if_neg h, if_pos h']; exact hasDerivAt_const _ _
      · intro k hk h0
        obtain rfl | rfl : k = 0 ∨ k = 1 := by omega
        · simp only [Hex.shape, if_neg h, if_pos h']; exact hasDerivAt_const _ _
        · simp only [Hex.shape, if_neg h, if_pos h']; exact (hg _ hz z).const_mul _
      · simp [Hex.shapeCurl, if_neg h, if_pos h']
    · refine ⟨fun k l => if k = 2 then (if l = 0 then r.dg ((a - 2 * Hex.per r) % (r.p + 1)) x * r.g ((a - 2 * Hex.per r) / (r.p + 1) % (r.p + 1)) y *
          r.f ((a - 2 * Hex.per r) / (r.p + 1) / (r.p + 1)) z else
        r.g ((a - 2 * Hex.per r) % (r.p + 1)) x * r.dg ((a - 2 * Hex.per r) / (r.p + 1) % (r.p + 1)) y * r.f ((a - 2 * Hex.per r) / (r.p + 1) / (r.p + 1)) z) else 0, ?_, ?_, ?_, ?_⟩
      · intro k hk h0
        obtain rfl | rfl : k = 1 ∨ k = 2 := by omega
        · simp only [Hex.shape, if_neg h, if_neg h']; exact hasDerivAt_const _ _
        · simp only [Hex.shape, if_neg h, if_neg h']; exact ((hg _ (hmod _) x).mul_const _).mul_const _
      · intro k hk h0
        obtain rfl | rfl : k = 0 ∨ k = 2 := by omega
        · simp only [Hex.shape, if_neg h, if_neg h']; exact hasDerivAt_const _ _
        · simp only [Hex.shape, if_neg h, if_neg h']; exact ((hg _ (hmod _) y).const_mul _).mul_const _
      · intro k hk h0
        obtain rfl | rfl : k = 0 ∨ k = 1 := by omega
        all_goals simp only [Hex.shape, if_neg h, if_neg h']; exact hasDerivAt_const _ _
      · simp [Hex.shapeCurl, if_neg h, if_neg h']

/-- **Hexahedron, the curl** is the curl of the field: `D k l` is the derivative of component `k` in direction `l`. -/
theorem C58_hex_curl (r : Rule ℝ) (hg : Derives r) (X : ℕ → ℝ) (x y z : ℝ) : ∃ D : ℕ → ℕ → ℝ,
    (∀ k < 3, k ≠ 0 → HasDerivAt (fun t => field3 r X t y z k) (D k 0) x) ∧ (∀ k < 3, k ≠ 1 → HasDerivAt (fun t => field3 r X x t z k) (D k 1) y) ∧
    (∀ k < 3, k ≠ 2 → HasDerivAt (fun t => field3 r X x y t k) (D k 2) z) ∧
    ∑ a ∈ range (3 * Hex.per r), X a * Hex.shapeCurl r x y z a 0 = D 2 1 - D 1 2 ∧ ∑ a ∈ range (3 * Hex.per r), X a * Hex.shapeCurl r x y z a 1 = D 0 2 - D 2 0 ∧
    ∑ a ∈ range (3 * Hex.per r), X a * Hex.shapeCurl r x y z a 2 = D 1 0 - D 0 1 := by
  choose D hD using hex_shape_deriv r hg x y z
  refine ⟨fun k l => ∑ a ∈ range (3 * Hex.per r), X a * D a k l, ?_, ?_, ?_, ?_, ?_, ?_⟩
  · exact fun k hk h0 => HasDerivAt.fun_sum fun a _ => ((hD a).1 k hk h0).const_mul (X a)
  · exact fun k hk h0 => HasDerivAt.fun_sum fun a _ => ((hD a).2.1 k hk h0).const_mul (X a)
  · exact fun k hk h0 => HasDerivAt.fun_sum fun a _ => ((hD a).2.2.1 k hk h0).const_mul (X a)
  · rw [← sum_sub_distrib]
    exact sum_congr rfl fun a _ => by rw [(hD a).2.2.2.1, mul_sub]
  · rw [← sum_sub_distrib]
    exact sum_congr rfl fun a _ => by rw [(hD a).2.2.2.2.1, mul_sub]
  · rw [← sum_sub_distrib]
    exact sum_congr rfl fun a _ => by rw [(hD a).2.2.2.2.2, mul_sub]

/-! ### Nodes -/

/-- Spec: `f` and `g` are one at their own node and zero at the others. -/
def IsNodal (r : Rule R) (open' closed : ℕ → R) : Prop :=
  (∀ i < r.p, ∀ j < r.p, r.f i (open' j) = if i = j then 1 else 0) ∧ ∀ i ≤ r.p, ∀ j ≤ r.p, r.g i (closed j) = if i = j then 1 else 0

theorem ite_mul_ite {p q s : Prop} [Decidable p] [Decidable q] [Decidable s] (h : (p ∧ q) ↔ s) :
    ((if p then 1 else 0) * (if q then 1 else 0) : R) = if s then 1 else 0 := by
  by_cases hp : p <;> by_cases hq : q <;> simp_all

omit [CommRing R] in
theorem div_mod_iff (n a b : ℕ) : (b % n = a % n ∧ b / n = a / n) ↔ a = b := by
  constructor
  · rintro ⟨h1, h2⟩
    rw [← Nat.div_add_mod a n, ← Nat.div_add_mod b n, h1, h2]
  · rintro rfl
    exact ⟨rfl, rfl⟩

/-- **Quadrilateral, nodes**: the component along its direction at its node is one for the dof's own function, and zero for every other function. -/
theorem C58_quad_nodal (r : Rule R) (open' closed : ℕ → R) (h : IsNodal r open' closed) (a b : ℕ) (ha : a < 2 * Quad.per r) (hb : b < 2 * Quad.per r) :
    ∑ k ∈ range 2, Quad.direction r a k * Quad.shape r (Quad.node r open' closed a).1 (Quad.node r open' closed a).2 b k = if a = b then 1 else 0 := by
  have hp : 0 < r.p := Nat.pos_of_ne_zero fun h0 => by simp [Quad.per, h0] at ha
  have hmod : ∀ c, c % (r.p + 1) ≤ r.p := fun c => Nat.lt_succ_iff.1 (Nat.mod_lt _ (Nat.succ_pos _))
  have hdiv : ∀ c, c < 2 * Quad.per r → ¬ c < Quad.per r → (c - Quad.per r) / (r.p + 1) < r.p := by
    intro c hc h'
    rw [Nat.div_lt_iff_lt_mul (by omega)]
    have : c - Quad.per r < Quad.per r := by omega
    exact this
  simp only [sum_range_succ, range_zero, sum_empty, zero_add, Quad.direction, Quad.node]
  by_cases h1 : a < Quad.per r <;> by_cases h2 : b < Quad.per r
  · simp only [if_pos h1, Quad.shape, if_pos h2, if_true, one_ne_zero, if_false, zero_mul, add_zero, one_mul]
    rw [h.1 _ (Nat.mod_lt _ hp) _ (Nat.mod_lt _ hp), h.2 _ (div_le h2) _ (div_le h1)]
    exact ite_mul_ite (div_mod_iff _ _ _)
  · have : a ≠ b := by omega
    simp [if_pos h1, Quad.shape, if_neg h2, this]
  · have : a ≠ b := by omega
    simp [if_neg h1, Quad.shape, if_pos h2, this]
  · simp only [if_neg h1, Quad.shape, if_neg h2, if_true, zero_ne_one, if_false, zero_mul, zero_add, one_mul]
    rw [h.1 _ (hdiv b hb h2) _ (hdiv a ha h1), h.2 _ (hmod _) _ (hmod _)]
    exact ite_mul_ite ((div_mod_iff _ _ _).trans (by omega))

theorem ite_mul_ite3 {p q t s : Prop} [Decidable p] [Decidable q] [Decidable t] [Decidable s] (h : (p ∧ q ∧ t) ↔ s) :
    ((if p then 1 else 0) * (if q then 1 else 0) * (if t then 1 else 0) : R) = if s then 1 else 0 := by
  by_cases hp : p <;> by_cases hq : q <;> by_cases ht : t <;> simp_all

omit [CommRing R] in
theorem div_mod_iff3 (n m a b : ℕ) : (b % n = a % n ∧ b / n % m = a / n % m ∧ b / n / m = a / n / m) ↔ a = b := by
  rw [← div_mod_iff n a b]
  constructor
  · rintro ⟨h1, h2, h3⟩
    exact ⟨h1, ((div_mod_iff m (a / n) (b / n)).1 ⟨h2, h3⟩).symm⟩
  · rintro ⟨h1, h2⟩
    rw [h1, h2]
    exact ⟨rfl, rfl, rfl⟩

/-- **Hexahedron, nodes.** -/
theorem C58_hex_nodal (r : Rule R) (open' closed : ℕ → R) (h : IsNodal r open' closed) (a b : ℕ) (ha : a < 3 * Hex.per r) (hb : b < 3 * Hex.per r) :
    ∑ k ∈ range 3, Hex.direction r a k * Hex.shape r (Hex.node r open' closed a).1 (Hex.node r open' closed a).2.1 (Hex.node r open' closed a).2.2 b k =
      if a = b then 1 else 0 := by
  have hp : 0 < r.p := Nat.pos_of_ne_zero fun h0 => by simp [Hex.per, h0] at ha
  have hmod : ∀ c, c % (r.p + 1) ≤ r.p := fun c => Nat.lt_succ_iff.1 (Nat.mod_lt _ (Nat.succ_pos _))
  have hd : ∀ c n m l, 0 < n * m → c < l * (n * m) → c / n / m < l := fun c n m l h0 hc => by
    rw [Nat.div_div_eq_div_mul]
    exact (Nat.div_lt_iff_lt_mul h0).2 hc
  have hx : ∀ c, c < Hex.per r → c / r.p / (r.p + 1) ≤ r.p := fun c hc => Nat.lt_succ_iff.1 (hd _ _ _ _ (by positivity) (by
    calc c < _ := hc
      _ = _ := by rw [Hex.per, Nat.succ_eq_add_one]; ring))
  have hy : ∀ c, c < Hex.per r → c / (r.p + 1) / r.p ≤ r.p := fun c hc => Nat.lt_succ_iff.1 (hd _ _ _ _ (by positivity) (by
    calc c < _ := hc
      _ = _ := by rw [Hex.per, Nat.succ_eq_add_one]; ring))
  have hz : ∀ c, c < Hex.per r → c / (r.p + 1) / (r.p + 1) < r.p := fun c hc => hd _ _ _ _ (by positivity) (by
    calc c < _ := hc
      _ = _ := by rw [Hex.per]; ring)
  simp only [sum_range_succ, range_zero, sum_empty, zero_add, Hex.direction, Hex.node]
  by_cases h1 : a < Hex.per r
  · by_cases h2 : b < Hex.per r
    · simp only [if_pos h1, Hex.shape, if_pos h2, if_true, one_ne_zero, OfNat.ofNat_ne_zero, if_false, zero_mul, add_zero, one_mul]
      rw [h.1 _ (Nat.mod_lt _ hp) _ (Nat.mod_lt _ hp), h.2 _ (hmod _) _ (hmod _), h.2 _ (hx b h2) _ (hx a h1)]
      exact ite_mul_ite3 (div_mod_iff3 _ _ _ _)
    · have : a ≠ b := by omega
      by_cases h3 : b < 2 * Hex.per r <;> simp [if_pos h1, Hex.shape, if_neg h2, h3, this]
  · by_cases h1' : a < 2 * Hex.per r
    · by_cases h2 : b < Hex.per r
      · have : a ≠ b := by omega
        simp [if_neg h1, if_pos h1', Hex.shape, if_pos h2, this]
      · by_cases h3 : b < 2 * Hex.per r
        · simp only [if_neg h1, if_pos h1', Hex.shape, if_neg h2, if_pos h3, if_true, zero_ne_one, OfNat.ofNat_ne_one, if_false, zero_mul, zero_add, add_zero, one_mul]
          rw [h.2 _ (hmod _) _ (hmod _), h.1 _ (Nat.mod_lt _ hp) _ (Nat.mod_lt _ hp), h.2 _ (hy _ (by omega)) _ (hy _ (by omega))]
          exact ite_mul_ite3 ((div_mod_iff3 _ _ _ _).trans (by omega))
        · have : a ≠ b := by omega
          simp [if_neg h1, if_pos h1', Hex.shape, if_neg h2, h3, this]
    · by_cases h2 : b < Hex.per r
      · have : a ≠ b := by omega
        simp [if_neg h1, if_neg h1', Hex.shape, if_pos h2, this]
      · by_cases h3 : b < 2 * Hex.per r
        · have : a ≠ b := by omega
          simp [if_neg h1, if_neg h1', Hex.shape, if_neg h2, h3, this]
        · simp only [if_neg h1, if_neg h1', Hex.shape, if_neg h2, if_neg h3, if_true, show (0 : ℕ) ≠ 2 by norm_num, show (1 : ℕ) ≠ 2 by norm_num, if_false, zero_mul, zero_add, one_mul]
          rw [h.2 _ (hmod _) _ (hmod _), h.2 _ (hmod _) _ (hmod _), h.1 _ (hz _ (by omega)) _ (hz _ (by omega))]
          exact ite_mul_ite3 ((div_mod_iff3 _ _ _ _).trans (by omega))

/-! ### Tangential continuity -/

/-- Spec: at `t` the closed function `m` is one and the others are zero. -/
def Selects (r : Rule R) (t : R) (m : ℕ) : Prop := m ≤ r.p ∧ ∀ i ≤ r.p, r.g i t = if i = m then 1 else 0

omit [CommRing R] in
theorem sel [CommRing R] {r : Rule R} {t : R} {m : ℕ} (h : Selects r t m) (F : ℕ → R) : ∑ i ∈ range (r.p + 1), F i * r.g i t = F m := by
  have : ∑ i ∈ range (r.p + 1), F i * r.g i t = ∑ i ∈ range (r.p + 1), F i * if i = m then 1 else 0 :=
    sum_congr rfl fun i hi => by rw [h.2 i (Nat.lt_succ_iff.1 (mem_range.1 hi))]
  rw [this]
  simp [Nat.lt_succ_iff.2 h.1]

/-- **Quadrilateral, tangential trace**: on the lines `y = t` and `x = t` through closed node `m` the tangential component is the combination of the `p` dofs of
    that line with the open functions, and depends on no other dof. -/
theorem C58_quad_trace (r : Rule R) (X : ℕ → R) (t : R) (m : ℕ) (h : Selects r t m) (s : R) :
    ∑ a ∈ range (2 * Quad.per r), X a * Quad.shape r s t a 0 = ∑ i ∈ range r.p, X (m * r.p + i) * r.f i s ∧
    ∑ a ∈ range (2 * Quad.per r), X a * Quad.shape r t s a 1 = ∑ j ∈ range r.p, X (Quad.per r + (j * (r.p + 1) + m)) * r.f j s := by
  constructor
  · rw [quad_sum]
    have h1 : ∑ j ∈ range r.p, ∑ i ∈ range (r.p + 1), X (Quad.per r + (j * (r.p + 1) + i)) * Quad.shape r s t (Quad.per r + (j * (r.p + 1) + i)) 0 = 0 :=
      sum_eq_zero fun j _ => sum_eq_zero fun i hi => by rw [(quad_y r s t j (mem_range.1 hi)).1, mul_zero]
    rw [h1, add_zero, ← sel h fun j => ∑ i ∈ range r.p, X (j * r.p + i) * r.f i s]
    refine sum_congr rfl fun j hj => ?_
    rw [sum_mul]
    exact sum_congr rfl fun i hi => by rw [(quad_x r s t (mem_range.1 hi) (mem_range.1 hj)).1]; ring
  · rw [quad_sum]
    have h1 : ∑ j ∈ range (r.p + 1), ∑ i ∈ range r.p, X (j * r.p + i) * Quad.shape r t s (j * r.p + i) 1 = 0 :=
      sum_eq_zero fun j hj => sum_eq_zero fun i hi => by rw [(quad_x r t s (mem_range.1 hi) (mem_range.1 hj)).2.1, mul_zero]
    rw [h1, zero_add]
    refine sum_congr rfl fun j _ => ?_
    rw [← sel h fun i => X (Quad.per r + (j * (r.p + 1) + i)) * r.f j s]
    exact sum_congr rfl fun i hi => by rw [(quad_y r t s j (mem_range.1 hi)).2.1]; ring

/-- **Hexahedron, tangential trace**: on the planes through closed node `m` the two tangential components are combinations of the dofs of that plane only. -/
theorem C58_hex_trace (r : Rule R) (X : ℕ → R) (t : R) (m : ℕ) (h : Selects r t m) (u v : R) :
    let ex := fun k j i => X ((k * (r.p + 1) + j) * r.p + i)
    let ey := fun k j i => X (Hex.per r + ((k * r.p + j) * (r.p + 1) + i))
    let ez := fun k j i => X (2 * Hex.per r + ((k * (r.p + 1) + j) * (r.p + 1) + i))
    let F := fun x y z c => ∑ a ∈ range (3 * Hex.per r), X a * Hex.shape r x y z a c
    (F u v t 0 = ∑ j ∈ range (r.p + 1), ∑ i ∈ range r.p, ex m j i * (r.f i u * r.g j v) ∧
      F u v t 1 = ∑ i ∈ range (r.p + 1), ∑ j ∈ range r.p, ey m j i * (r.g i u * r.f j v)) ∧
    (F u t v 0 = ∑ k ∈ range (r.p + 1), ∑ i ∈ range r.p, ex k m i * (r.f i u * r.g k v) ∧
      F u t v 2 = ∑ i ∈ range (r.p + 1), ∑ k ∈ range r.p, ez k m i * (r.g i u * r.f k v)) ∧
    (F t u v 1 = ∑ k ∈ range (r.p + 1), ∑ j ∈ range r.p, ey k j m * (r.f j u * r.g k v) ∧
      F t u v 2 = ∑ j ∈ range (r.p + 1), ∑ k ∈ range r.p, ez k j m * (r.g j u * r.f k v)) := by
  intro ex ey ez F
  have fx : ∀ x y z, F x y z 0 = ∑ k ∈ range (r.p + 1), ∑ j ∈ range (r.p + 1), ∑ i ∈ range r.p, ex k j i * (r.f i x * r.g j y * r.g k z) := fun x y z => by
    show ∑ a ∈ range (3 * Hex.per r), X a * Hex.shape r x y z a 0 = _
    rw [hex_dofs r X _ _ (fun _ _ _ => 0) (fun _ _ _ => 0) (fun i hi j hj k hk => (hex_x r _ _ _ hi hj hk).1.1)
        (fun i hi j hj k hk => (hex_y r _ _ _ hi hj hk).1.1) (fun i hi j hj k _ => (hex_z r _ _ _ k hi hj).1.1)]
    simp only [mul_zero, sum_const_zero, add_zero, ex]
  have fy : ∀ x y z, F x y z 1 = ∑ i ∈ range (r.p + 1), ∑ k ∈ range (r.p + 1), ∑ j ∈ range r.p, ey k j i * (r.g i x * r.f j y * r.g k z) := fun x y z => by
    show ∑ a ∈ range (3 * Hex.per r), X a * Hex.shape r x y z a 1 = _
    rw [hex_dofs r X _ (fun _ _ _ => 0) _ (fun _ _ _ => 0) (fun i hi j hj k hk => (hex_x r _ _ _ hi hj hk).1.2.1)
        (fun i hi j hj k hk => (hex_y r _ _ _ hi hj hk).1.2.1) (fun i hi j hj k _ => (hex_z r _ _ _ k hi hj).1.2.1)]
    simp only [mul_zero, sum_const_zero, add_zero, zero_add, ey]
  have fz : ∀ x y z, F x y z 2 = ∑ j ∈ range (r.p + 1), ∑ i ∈ range (r.p + 1), ∑ k ∈ range r.p, ez k j i * (r.g i x * r.g j y * r.f k z) := fun x y z => by
    show ∑ a ∈ range (3 * Hex.per r), X a * Hex.shape r x y z a 2 = _
    rw [hex_dofs r X _ (fun _ _ _ => 0) (fun _ _ _ => 0) _ (fun i hi j hj k hk => (hex_x r _ _ _ hi hj hk).1.2.2)
        (fun i hi j hj k hk => (hex_y r _ _ _ hi hj hk).1.2.2) (fun i hi j hj k _ => (hex_z r _ _ _ k hi hj).1.2.2)]
    simp only [mul_zero, sum_const_zero, zero_add, ez]
  refine ⟨⟨?_, ?_⟩, ⟨?_, ?_⟩, ⟨?_, ?_⟩⟩
  · rw [fx, ← sel h fun k => ∑ j ∈ range (r.p + 1), ∑ i ∈ range r.p, ex k j i * (r.f i u * r.g j v)]
    refine sum_congr rfl fun k _ => ?_
    simp only [sum_mul]
    exact sum_congr rfl fun j _ => sum_congr rfl fun i _ => by ring
  · rw [fy, sum_comm, ← sel h fun k => ∑ i ∈ range (r.p + 1), ∑ j ∈ range r.p, ey k j i * (r.g i u * r.f j v)]
    refine sum_congr rfl fun k _ => ?_
    simp only [sum_mul]
    exact sum_congr rfl fun j _ => sum_congr rfl fun i _ => by ring
  · rw [fx]
    refine sum_congr rfl fun k _ => ?_
    rw [← sel h fun j => ∑ i ∈ range r.p, ex k j i * (r.f i u * r.g k v)]
    simp only [sum_mul]
    exact sum_congr rfl fun j _ => sum_congr rfl fun i _ => by ring
  · rw [fz, ← sel h fun j => ∑ i ∈ range (r.p + 1), ∑ k ∈ range r.p, ez k j i * (r.g i u * r.f k v)]
    refine sum_congr rfl fun k _ => ?_
    simp only [sum_mul]
    exact sum_congr rfl fun j _ => sum_congr rfl fun i _ => by ring
  · rw [fy, ← sel h fun i => ∑ k ∈ range (r.p + 1), ∑ j ∈ range r.p, ey k j i * (r.f j u * r.g k v)]
    refine sum_congr rfl fun k _ => ?_
    simp only [sum_mul]
    exact sum_congr rfl fun j _ => sum_congr rfl fun i _ => by ring
  · rw [fz]
    refine sum_congr rfl fun j _ => ?_
    rw [← sel h fun i => ∑ k ∈ range r.p, ez k j i * (r.g j u * r.f k v)]
    simp only [sum_mul]
    exact sum_congr rfl fun i _ => sum_congr rfl fun k _ => by ring

/-! ### The code's polynomials -/

/-- Closed functions as the code evaluates them. -/
def IsLobatto (r : Rule ℝ) (s5 : ℝ) : Prop :=
  (∀ (j : Fin (r.p + 1)) t, r.g j t = Nodal.lobatto s5 (r.p + 1) t j) ∧ ∀ (j : Fin (r.p + 1)) t, r.dg j t = Nodal.lobattoDerivative s5 (r.p + 1) t j

theorem lobatto_ends (s5 : ℝ) (p i : ℕ) (h1 : 1 ≤ p) (h3 : p ≤ 3) (hi : i < p + 1) :
    Nodal.lobatto s5 (p + 1) 0 ⟨i, hi⟩ = (if i = 0 then 1 else 0) ∧ Nodal.lobatto s5 (p + 1) 1 ⟨i, hi⟩ = if i = p then 1 else 0 := by
  interval_cases p <;> interval_cases i <;> simp [Nodal.lobatto] <;> norm_num

/-- **The hypotheses hold for orders one to three**: the derivative routine is right for the exact square root of five, and the end points select the first and last
    closed function whatever literal is used for it. -/
theorem C58_orders (r : Rule ℝ) (s5 : ℝ) (h : IsLobatto r s5) (h1 : 1 ≤ r.p) (h3 : r.p ≤ 3) :
    (s5 ^ 2 = 5 → Derives r) ∧ Selects r 0 0 ∧ Selects r 1 r.p := by
  refine ⟨fun h5 j hj t => ?_, ⟨Nat.zero_le _, fun i hi => ?_⟩, ⟨le_refl _, fun i hi => ?_⟩⟩
  · have hd := C17.C17_lobatto_derivative s5 h5 (r.p + 1) (by omega) (by omega) t ⟨j, by omega⟩
    rw [← h.2 ⟨j, by omega⟩ t] at hd
    rwa [show r.g j = fun x => Nodal.lobatto s5 (r.p + 1) x ⟨j, by omega⟩ from funext fun x => h.1 ⟨j, by omega⟩ x]
  · rw [h.1 ⟨i, by omega⟩ 0, (lobatto_ends s5 r.p i h1 h3 (by omega)).1]
  · rw [h.1 ⟨i, by omega⟩ 1, (lobatto_ends s5 r.p i h1 h3 (by omega)).2]

/-! ### On the physical element -/

open Serac.Transform

theorem partial_deriv {m n : ℕ} {f : (Fin n → ℝ) → (Fin m → ℝ)} {D : Matrix (Fin m) (Fin n) ℝ} {x : Fin n → ℝ} (h : IsDeriv f D x) (i : Fin m) (j : Fin n) :
    HasDerivAt (fun t => f (Function.update x j t) i) (D i j) (x j) := by
  have h1 : HasFDerivAt f (LinearMap.toContinuousLinearMap (Matrix.toLin' D)) (Function.update x j (x j)) := by
    rw [Function.update_eq_self]
    exact h
  have h2 := (hasDerivAt_pi.1 (h1.comp_hasDerivAt (x j) (hasDerivAt_update x j (x j)))) i
  have e : (LinearMap.toContinuousLinearMap (Matrix.toLin' D)) (Pi.single j 1) i = D i j := by
    show (Matrix.toLin' D (Pi.single j 1)) i = D i j
    rw [Matrix.toLin'_apply, Matrix.mulVec_single_one]
    rfl
  rw [e] at h2
  exact h2

/-- **Quadrilateral, physical values**: from the dofs of the pulled-back field the code obtains value and curl of the physical field at every point. -/
theorem C58_quad_physical (r : Rule ℝ) (hg : Derives r) (X : ℕ → ℝ) (φ u : (Fin 2 → ℝ) → (Fin 2 → ℝ)) (J : (Fin 2 → ℝ) → Matrix (Fin 2) (Fin 2) ℝ)
    (Du Dû : Fin (r.q * r.q) → Matrix (Fin 2) (Fin 2) ℝ) :
    let ξ : Fin (r.q * r.q) → Fin 2 → ℝ := fun k => ![r.pt (k % r.q), r.pt (k / r.q)]
    let û : (Fin 2 → ℝ) → Fin 2 → ℝ := fun y i => field2 r X (y 0) (y 1) i
    (∀ k, ∀ᶠ y in nhds (ξ k), IsDeriv φ (J y) y) → (∀ k a i, DifferentiableAt ℝ (fun y => J y a i) (ξ k)) → (∀ k, (J (ξ k)).det ≠ 0) →
    (∀ k, IsDeriv u (Du k) (φ (ξ k))) → (∀ k, ∀ᶠ y in nhds (ξ k), û y = Matrix.vecMul (u (φ y)) (J y)) → (∀ k, IsDeriv û (Dû k) (ξ k)) →
    ∀ k : Fin (r.q * r.q), parentToPhysicalCurl2 (storeJacobian fun k => J (ξ k)) (fun k => (fun i => (Quad.interpolate r X).value k i, (Quad.interpolate r X).curl k)) k =
      some (u (φ (ξ k)), C18.curl2 (Du k)) := by
  intro ξ û hφ hJd hdet hu hpull hû k
  rw [← C18.C18_curl2_pull φ u û J ξ Du Dû hφ hJd hdet hu hpull hû k]
  congr 1
  funext k
  obtain ⟨hv, hc⟩ := C58_quad_interpolate r X k
  refine Prod.ext ?_ ?_
  · funext i
    exact hv i i.2
  · show (Quad.interpolate r X).curl k = C18.curl2 (Dû k)
    obtain ⟨E, F, hE, hF, hEF⟩ := C58_quad_curl r hg X (r.pt (k % r.q)) (r.pt (k / r.q))
    rw [hc, hEF]
    have h1 := partial_deriv (hû k) 1 0
    have h2 := partial_deriv (hû k) 0 1
    have e1 : (fun t => û (Function.update (ξ k) 0 t) 1) = fun t => field2 r X t (r.pt (k / r.q)) 1 := by
      funext t
      simp [û, ξ, Function.update]
    have e2 : (fun t => û (Function.update (ξ k) 1 t) 0) = fun t => field2 r X (r.pt (k % r.q)) t 0 := by
      funext t
      simp [û, ξ, Function.update]
    rw [e1] at h1
    rw [e2] at h2
    rw [C18.curl2, hE.unique h1, hF.unique h2]

/-- **Hexahedron, physical values.** -/
theorem C58_hex_physical (r : Rule ℝ) (hg : Derives r) (X : ℕ → ℝ) (φ u : (Fin 3 → ℝ) → (Fin 3 → ℝ)) (J : (Fin 3 → ℝ) → Matrix (Fin 3) (Fin 3) ℝ)
    (Du Dû : Fin (r.q * r.q * r.q) → Matrix (Fin 3) (Fin 3) ℝ) :
    let ξ : Fin (r.q * r.q * r.q) → Fin 3 → ℝ := fun k => ![px r k, py r k, pz r k]
    let û : (Fin 3 → ℝ) → Fin 3 → ℝ := fun y i => field3 r X (y 0) (y 1) (y 2) i
    (∀ k, ∀ᶠ y in nhds (ξ k), IsDeriv φ (J y) y) → (∀ k a i, DifferentiableAt ℝ (fun y => J y a i) (ξ k)) → (∀ k, (J (ξ k)).det ≠ 0) →
    (∀ k, IsDeriv u (Du k) (φ (ξ k))) → (∀ k, ∀ᶠ y in nhds (ξ k), û y = Matrix.vecMul (u (φ y)) (J y)) → (∀ k, IsDeriv û (Dû k) (ξ k)) →
    ∀ k : Fin (r.q * r.q * r.q), parentToPhysicalCurl3 (storeJacobian fun k => J (ξ k))
      (fun k => (fun i => (Hex.interpolate r X).value k i, fun i => (Hex.interpolate r X).curl k i)) k = some (u (φ (ξ k)), C18.curl3 (Du k)) := by
  intro ξ û hφ hJd hdet hu hpull hû k
  rw [← C18.C18_curl3_pull φ u û J ξ Du Dû hφ hJd hdet hu hpull hû k]
  congr 1
  funext k
  have hv := fun c hc => (C58_hex_interpolate r X k c hc).1
  have hc := fun c hc => (C58_hex_interpolate r X k c hc).2
  refine Prod.ext ?_ ?_
  · funext i
    exact hv i i.2
  · show (fun i : Fin 3 => (Hex.interpolate r X).curl k i) = C18.curl3 (Dû k)
    obtain ⟨D, hx, hy, hz, h0, h1, h2⟩ := C58_hex_curl r hg X (px r k) (py r k) (pz r k)
    have ux : ∀ c : Fin 3, (c : ℕ) ≠ 0 → D c 0 = Dû k c 0 := fun c hc => by
      refine (hx c c.2 hc).unique ?_
      have := partial_deriv (hû k) c 0
      rwa [show (fun t => û (Function.update (ξ k) 0 t) c) = fun t => field3 r X t (py r k) (pz r k) c by funext t; simp [û, ξ, Function.update]] at this
    have uy : ∀ c : Fin 3, (c : ℕ) ≠ 1 → D c 1 = Dû k c 1 := fun c hc => by
      refine (hy c c.2 hc).unique ?_
      have := partial_deriv (hû k) c 1
      rwa [show (fun t => û (Function.update (ξ k) 1 t) c) = fun t => field3 r X (px r k) t (pz r k) c by funext t; simp [û, ξ, Function.update]] at this
    have uz : ∀ c : Fin 3, (c : ℕ) ≠ 2 → D c 2 = Dû k c 2 := fun c hc => by
      refine (hz c c.2 hc).unique ?_
      have := partial_deriv (hû k) c 2
      rwa [show (fun t => û (Function.update (ξ k) 2 t) c) = fun t => field3 r X (px r k) (py r k) t c by funext t; simp [û, ξ, Function.update]] at this
    have e0 : (Hex.interpolate r X).curl k 0 = Dû k 2 1 - Dû k 1 2 := by
      rw [hc 0 (by norm_num), h0, ← uy 2 (by decide), ← uz 1 (by decide)]; rfl
    have e1 : (Hex.interpolate r X).curl k 1 = Dû k 0 2 - Dû k 2 0 := by
      rw [hc 1 (by norm_num), h1, ← uz 0 (by decide), ← ux 2 (by decide)]; rfl
    have e2 : (Hex.interpolate r X).curl k 2 = Dû k 1 0 - Dû k 0 1 := by
      rw [hc 2 (by norm_num), h2, ← ux 1 (by decide), ← uy 0 (by decide)]; rfl
    funext i
    fin_cases i
    · exact e0
    · exact e1
    · exact e2

/-! ### Examples -/

/-- Lowest order, one point per direction scaled by two to stay in the integers. -/
private def lin : Rule ℤ := ⟨1, 1, fun _ _ => 1, fun j x => if j = 0 then 2 - x else x, fun j _ => if j = 0 then -1 else 1, fun _ => 1, fun _ => 1⟩

example : (Quad.interpolate lin (fun a => [1, 2, 3, 5].getD a 0)).value 0 0 = 3 ∧ (Quad.interpolate lin (fun a => [1, 2, 3, 5].getD a 0)).value 0 1 = 8 ∧
    (Quad.interpolate lin (fun a => [1, 2, 3, 5].getD a 0)).curl 0 = 1 := by decide

example : (Hex.interpolate lin (fun a => (a : ℤ) * a)).curl 0 0 = 32 := by decide

/-- Order two as in the code. -/
private def two : Rule ℝ where
  p := 2
  q := 3
  f := fun j t => if h : j < 2 then Nodal.gaussLegendre 2 t ⟨j, h⟩ else 0
  g := fun j t => if h : j < 3 then Nodal.lobatto (Real.sqrt 5) 3 t ⟨j, h⟩ else 0
  dg := fun j t => if h : j < 3 then Nodal.lobattoDerivative (Real.sqrt 5) 3 t ⟨j, h⟩ else 0
  pt := fun _ => 1 / 2
  wt := fun _ => 1

private theorem two_lobatto : IsLobatto two (Real.sqrt 5) := ⟨fun j t => by simp only [two]; exact dif_pos j.2, fun j t => by simp only [two]; exact dif_pos j.2⟩

example : Derives two ∧ Selects two 1 2 :=
  have h := C58_orders two _ two_lobatto (by simp [two]) (by simp [two])
  ⟨h.1 (Real.sq_sqrt (by norm_num)), h.2.2⟩

end Serac.C58
