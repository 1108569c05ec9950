import Verif.Model.SumFactor
import Mathlib.Algebra.BigOperators.Ring.Finset
import Mathlib.Algebra.BigOperators.Group.Finset.Sigma
import Mathlib.Algebra.BigOperators.Intervals
import Mathlib.Tactic.Ring
import Mathlib.Tactic.NormNum
/-!
# C42: sum-factorised evaluation

Spec.  `shape`, `shapeGrad` (the direct shape functions of the element, in the order of its nodes) define what evaluation means: the value at a point is the
sum over all nodes of nodal value times shape function, and integration of `(s, f)` against node `a` is the sum over all points of weight times
`s φ_a + f · ∇φ_a`.
-/

namespace Serac.C42
open Serac.SF Finset

variable {R : Type} [CommRing R]

theorem sumTo_eq (d : ℕ) (f : ℕ → R) : sumTo d f = ∑ k ∈ range d, f k := by
  unfold sumTo
  induction d with
  | zero => simp
  | succ d ih => rw [List.range_succ, List.foldl_append, ih, sum_range_succ]; rfl

/-- Sum over a flat index as a double sum. -/
theorem sum_flat (m n : ℕ) (f : ℕ → R) : ∑ a ∈ range (m * n), f a = ∑ j ∈ range m, ∑ i ∈ range n, f (j * n + i) := by
  induction m with
  | zero => simp
  | succ m ih => rw [Nat.succ_mul, sum_range_add, ih, sum_range_succ]

theorem div_flat {n i : ℕ} (j : ℕ) (h : i < n) : (j * n + i) / n = j := by
  rw [mul_comm, Nat.mul_add_div (by omega), Nat.div_eq_of_lt h, add_zero]

theorem mod_flat {n i : ℕ} (j : ℕ) (h : i < n) : (j * n + i) % n = i := by
  rw [mul_comm, Nat.mul_add_mod, Nat.mod_eq_of_lt h]

/-- Double sum over nodes of a quadrilateral. -/
theorem sum_flat2 (n : ℕ) (f : ℕ → ℕ → ℕ → R) :
    ∑ a ∈ range (n * n), f a (a / n) (a % n) = ∑ j ∈ range n, ∑ i ∈ range n, f (j * n + i) j i := by
  rw [sum_flat]
  refine sum_congr rfl fun j _ => sum_congr rfl fun i hi => ?_
  rw [div_flat j (mem_range.1 hi), mod_flat j (mem_range.1 hi)]

/-- Triple sum over nodes of a hexahedron. -/
theorem sum_flat3 (n : ℕ) (f : ℕ → ℕ → ℕ → ℕ → R) : ∑ a ∈ range (n * n * n), f a (a / n / n) (a / n % n) (a % n) =
    ∑ k ∈ range n, ∑ j ∈ range n, ∑ i ∈ range n, f ((k * n + j) * n + i) k j i := by
  rw [sum_flat, sum_flat]
  refine sum_congr rfl fun k _ => sum_congr rfl fun j hj => sum_congr rfl fun i hi => ?_
  rw [div_flat _ (mem_range.1 hi), mod_flat _ (mem_range.1 hi), div_flat _ (mem_range.1 hj), mod_flat _ (mem_range.1 hj)]

theorem sum_pull2 (s t : Finset ℕ) (f : ℕ → ℕ → R) (b : ℕ → R) (c : ℕ → R) (g : ℕ → ℕ → R) (h : ∀ j i, f j i * c i * b j = g j i) :
    ∑ j ∈ s, (∑ i ∈ t, f j i * c i) * b j = ∑ j ∈ s, ∑ i ∈ t, g j i := by
  refine sum_congr rfl fun j _ => ?_
  rw [sum_mul]
  exact sum_congr rfl fun i _ => h j i

/-! ### Quadrilaterals -/

/-- **C42, quadrilateral, values and gradients** at every point of the rule. -/
theorem C42_quad_interpolate (r : Rule R) (X : ℕ → R) (Q : ℕ) :
    (Quad.interpolate r X).value Q = ∑ a ∈ range (r.n * r.n), X a * Quad.shape r (r.pt (Q % r.q)) (r.pt (Q / r.q)) a ∧
    ∀ k < 2, (Quad.interpolate r X).grad Q k = ∑ a ∈ range (r.n * r.n), X a * Quad.shapeGrad r (r.pt (Q % r.q)) (r.pt (Q / r.q)) a k := by
  constructor
  · simp only [Quad.interpolate, Quad.shape, contract2, sumTo_eq]
    rw [sum_flat2 r.n (fun a j i => X a * (r.N i (r.pt (Q % r.q)) * r.N j (r.pt (Q / r.q))))]
    exact sum_pull2 _ _ _ _ _ _ fun j i => by simp only [Rule.B]; ring
  · intro k hk
    obtain rfl | rfl : k = 0 ∨ k = 1 := by omega
    · simp only [Quad.interpolate, Quad.shapeGrad, contract2, sumTo_eq]
      rw [sum_flat2 r.n (fun a j i => X a * (r.dN i (r.pt (Q % r.q)) * r.N j (r.pt (Q / r.q))))]
      exact sum_pull2 _ _ _ _ _ _ fun j i => by simp only [Rule.B, Rule.G]; ring
    · simp only [Quad.interpolate, Quad.shapeGrad, contract2, sumTo_eq]
      rw [sum_flat2 r.n (fun a j i => X a * (r.N i (r.pt (Q % r.q)) * r.dN j (r.pt (Q / r.q))))]
      exact sum_pull2 _ _ _ _ _ _ fun j i => by simp only [Rule.B, Rule.G]; ring

/-- **C42, quadrilateral, integration** against every node. -/
theorem C42_quad_integrate (r : Rule R) (f : PointData R) (a : ℕ) :
    Quad.integrate r f a = ∑ Q ∈ range (r.q * r.q), r.wt (Q % r.q) * r.wt (Q / r.q) *
      (f.value Q * Quad.shape r (r.pt (Q % r.q)) (r.pt (Q / r.q)) a + ∑ k ∈ range 2, f.grad Q k * Quad.shapeGrad r (r.pt (Q % r.q)) (r.pt (Q / r.q)) a k) := by
  rw [sum_flat2 r.q (fun Q y x => r.wt x * r.wt y * (f.value Q * Quad.shape r (r.pt x) (r.pt y) a +
    ∑ k ∈ range 2, f.grad Q k * Quad.shapeGrad r (r.pt x) (r.pt y) a k))]
  simp only [Quad.integrate, contract2, sumTo_eq]
  rw [← sum_add_distrib]
  refine sum_congr rfl fun y _ => ?_
  rw [add_mul, sum_mul, sum_mul, sum_mul, ← sum_add_distrib, ← sum_add_distrib]
  refine sum_congr rfl fun x _ => ?_
  simp only [sum_range_succ, range_zero, sum_empty, Quad.shape, Quad.shapeGrad, Rule.Bw, Rule.Gw]
  ring

/-- **C42, quadrilateral, transpose**: integration is the transpose of evaluation, with the weights of the points. -/
theorem C42_quad_transpose (r : Rule R) (f : PointData R) (X : ℕ → R) :
    ∑ a ∈ range (r.n * r.n), Quad.integrate r f a * X a = ∑ Q ∈ range (r.q * r.q), r.wt (Q % r.q) * r.wt (Q / r.q) *
      (f.value Q * (Quad.interpolate r X).value Q + ∑ k ∈ range 2, f.grad Q k * (Quad.interpolate r X).grad Q k) := by
  simp only [C42_quad_integrate, sum_mul]
  rw [sum_comm]
  refine sum_congr rfl fun Q _ => ?_
  rw [(C42_quad_interpolate r X Q).1]
  have h : ∑ k ∈ range 2, f.grad Q k * (Quad.interpolate r X).grad Q k =
      ∑ k ∈ range 2, f.grad Q k * ∑ a ∈ range (r.n * r.n), X a * Quad.shapeGrad r (r.pt (Q % r.q)) (r.pt (Q / r.q)) a k :=
    sum_congr rfl fun k hk => by rw [(C42_quad_interpolate r X Q).2 k (mem_range.1 hk)]
  rw [h]
  simp only [sum_range_succ, range_zero, sum_empty, mul_add, mul_sum, ← sum_add_distrib, zero_add]
  refine sum_congr rfl fun a _ => ?_
  ring

/-- A unit nodal vector. -/
def unit (j : ℕ) : ℕ → R := fun a => if a = j then 1 else 0

/-- **C42, quadrilateral, columns**: applying the derivative blocks to shape function `j` gives what applying them to the values and gradients of the
unit nodal vector `j` gives; so assembled columns agree with the action on vectors. -/
theorem C42_quad_column (r : Rule R) (j : ℕ) (hj : j < r.n * r.n) (d00 : ℕ → R) (d01 d10 : ℕ → ℕ → R) (d11 : ℕ → ℕ → ℕ → R) (Q : ℕ) :
    let u := Quad.interpolate r (unit j)
    (Quad.applyShape r j d00 d01 d10 d11).value Q = d00 Q * u.value Q + ∑ k ∈ range 2, d01 Q k * u.grad Q k ∧
    ∀ m, (Quad.applyShape r j d00 d01 d10 d11).grad Q m = d10 Q m * u.value Q + ∑ k ∈ range 2, d11 Q m k * u.grad Q k := by
  intro u
  have hu : ∀ g : ℕ → R, ∑ a ∈ range (r.n * r.n), unit j a * g a = g j := by
    intro g
    simp [unit, hj]
  have hv : u.value Q = r.B (Q % r.q) (j % r.n) * r.B (Q / r.q) (j / r.n) := by
    rw [show u.value Q = _ from (C42_quad_interpolate r (unit j) Q).1, hu]
    rfl
  have hg0 : u.grad Q 0 = r.G (Q % r.q) (j % r.n) * r.B (Q / r.q) (j / r.n) := by
    rw [show u.grad Q 0 = _ from (C42_quad_interpolate r (unit j) Q).2 0 (by norm_num), hu]
    rfl
  have hg1 : u.grad Q 1 = r.B (Q % r.q) (j % r.n) * r.G (Q / r.q) (j / r.n) := by
    rw [show u.grad Q 1 = _ from (C42_quad_interpolate r (unit j) Q).2 1 (by norm_num), hu]
    rfl
  simp only [sum_range_succ, range_zero, sum_empty, hv, hg0, hg1, Quad.applyShape, sumTo_eq]
  exact ⟨trivial, fun _ => trivial⟩

/-! ### Hexahedra -/

theorem sum_pull3 (s t v : Finset ℕ) (f : ℕ → ℕ → ℕ → R) (b c d : ℕ → R) (g : ℕ → ℕ → ℕ → R) (h : ∀ k j i, f k j i * d i * c j * b k = g k j i) :
    ∑ k ∈ s, (∑ j ∈ t, (∑ i ∈ v, f k j i * d i) * c j) * b k = ∑ k ∈ s, ∑ j ∈ t, ∑ i ∈ v, g k j i := by
  refine sum_congr rfl fun k _ => ?_
  rw [sum_mul]
  refine sum_congr rfl fun j _ => ?_
  rw [sum_mul, sum_mul]
  exact sum_congr rfl fun i _ => h k j i

/-- The coordinates of point `Q`. -/
def px (r : Rule R) (Q : ℕ) : R := r.pt (Q % r.q)
def py (r : Rule R) (Q : ℕ) : R := r.pt (Q / r.q % r.q)
def pz (r : Rule R) (Q : ℕ) : R := r.pt (Q / r.q / r.q)

/-- **C42, hexahedron, values and gradients.** -/
theorem C42_hex_interpolate (r : Rule R) (X : ℕ → R) (Q : ℕ) :
    (Hex.interpolate r X).value Q = ∑ a ∈ range (r.n * r.n * r.n), X a * Hex.shape r (px r Q) (py r Q) (pz r Q) a ∧
    ∀ k < 3, (Hex.interpolate r X).grad Q k = ∑ a ∈ range (r.n * r.n * r.n), X a * Hex.shapeGrad r (px r Q) (py r Q) (pz r Q) a k := by
  constructor
  · simp only [Hex.interpolate, Hex.shape, contract3, sumTo_eq]
    rw [sum_flat3 r.n (fun a k j i => X a * (r.N i (px r Q) * r.N j (py r Q) * r.N k (pz r Q)))]
    exact sum_pull3 _ _ _ _ _ _ _ _ fun k j i => by simp only [Rule.B, px, py, pz]; ring
  · intro k hk
    obtain rfl | rfl | rfl : k = 0 ∨ k = 1 ∨ k = 2 := by omega
    · simp only [Hex.interpolate, Hex.shapeGrad, contract3, sumTo_eq]
      rw [sum_flat3 r.n (fun a k j i => X a * (r.dN i (px r Q) * r.N j (py r Q) * r.N k (pz r Q)))]
      exact sum_pull3 _ _ _ _ _ _ _ _ fun k j i => by simp only [Rule.B, Rule.G, px, py, pz]; ring
    · simp only [Hex.interpolate, Hex.shapeGrad, contract3, sumTo_eq]
      rw [sum_flat3 r.n (fun a k j i => X a * (r.N i (px r Q) * r.dN j (py r Q) * r.N k (pz r Q)))]
      exact sum_pull3 _ _ _ _ _ _ _ _ fun k j i => by simp only [Rule.B, Rule.G, px, py, pz]; ring
    · simp only [Hex.interpolate, Hex.shapeGrad, contract3, sumTo_eq]
      rw [sum_flat3 r.n (fun a k j i => X a * (r.N i (px r Q) * r.N j (py r Q) * r.dN k (pz r Q)))]
      exact sum_pull3 _ _ _ _ _ _ _ _ fun k j i => by simp only [Rule.B, Rule.G, px, py, pz]; ring

/-- The weight of point `Q`. -/
def wt3 (r : Rule R) (Q : ℕ) : R := r.wt (Q % r.q) * r.wt (Q / r.q % r.q) * r.wt (Q / r.q / r.q)

/-- **C42, hexahedron, integration.** -/
theorem C42_hex_integrate (r : Rule R) (f : PointData R) (a : ℕ) :
    Hex.integrate r f a = ∑ Q ∈ range (r.q * r.q * r.q), wt3 r Q *
      (f.value Q * Hex.shape r (px r Q) (py r Q) (pz r Q) a + ∑ k ∈ range 3, f.grad Q k * Hex.shapeGrad r (px r Q) (py r Q) (pz r Q) a k) := by
  simp only [wt3, px, py, pz]
  rw [sum_flat3 r.q (fun Q z y x => r.wt x * r.wt y * r.wt z * (f.value Q * Hex.shape r (r.pt x) (r.pt y) (r.pt z) a +
    ∑ k ∈ range 3, f.grad Q k * Hex.shapeGrad r (r.pt x) (r.pt y) (r.pt z) a k))]
  simp only [Hex.integrate, contract3, sumTo_eq]
  rw [← sum_add_distrib]
  refine sum_congr rfl fun z _ => ?_
  rw [← sum_add_distrib, sum_mul, sum_mul, ← sum_add_distrib]
  refine sum_congr rfl fun y _ => ?_
  rw [← sum_add_distrib]
  simp only [sum_mul, add_mul, ← sum_add_distrib]
  refine sum_congr rfl fun x _ => ?_
  simp only [sum_range_succ, range_zero, sum_empty, Hex.shape, Hex.shapeGrad, Rule.Bw, Rule.Gw]
  ring

/-- **C42, hexahedron, transpose.** -/
theorem C42_hex_transpose (r : Rule R) (f : PointData R) (X : ℕ → R) :
    ∑ a ∈ range (r.n * r.n * r.n), Hex.integrate r f a * X a = ∑ Q ∈ range (r.q * r.q * r.q), wt3 r Q *
      (f.value Q * (Hex.interpolate r X).value Q + ∑ k ∈ range 3, f.grad Q k * (Hex.interpolate r X).grad Q k) := by
  simp only [C42_hex_integrate, sum_mul]
  rw [sum_comm]
  refine sum_congr rfl fun Q _ => ?_
  rw [(C42_hex_interpolate r X Q).1]
  have h : ∑ k ∈ range 3, f.grad Q k * (Hex.interpolate r X).grad Q k =
      ∑ k ∈ range 3, f.grad Q k * ∑ a ∈ range (r.n * r.n * r.n), X a * Hex.shapeGrad r (px r Q) (py r Q) (pz r Q) a k :=
    sum_congr rfl fun k hk => by rw [(C42_hex_interpolate r X Q).2 k (mem_range.1 hk)]
  rw [h]
  simp only [sum_range_succ, range_zero, sum_empty, mul_add, mul_sum, ← sum_add_distrib, zero_add]
  refine sum_congr rfl fun a _ => ?_
  ring

/-- **C42, hexahedron, columns.** -/
theorem C42_hex_column (r : Rule R) (j : ℕ) (hj : j < r.n * r.n * r.n) (d00 : ℕ → R) (d01 d10 : ℕ → ℕ → R) (d11 : ℕ → ℕ → ℕ → R) (Q : ℕ) :
    let u := Hex.interpolate r (unit j)
    (Hex.applyShape r j d00 d01 d10 d11).value Q = d00 Q * u.value Q + ∑ k ∈ range 3, d01 Q k * u.grad Q k ∧
    ∀ m, (Hex.applyShape r j d00 d01 d10 d11).grad Q m = d10 Q m * u.value Q + ∑ k ∈ range 3, d11 Q m k * u.grad Q k := by
  intro u
  have hu : ∀ g : ℕ → R, ∑ a ∈ range (r.n * r.n * r.n), unit j a * g a = g j := by
    intro g
    simp [unit, hj]
  have hy : j % (r.n * r.n) / r.n = j / r.n % r.n := Nat.mod_mul_right_div_self j r.n r.n
  have hz : j / (r.n * r.n) = j / r.n / r.n := (Nat.div_div_eq_div_mul j r.n r.n).symm
  have hv : u.value Q = r.B (Q % r.q) (j % r.n) * r.B (Q / r.q % r.q) (j / r.n % r.n) * r.B (Q / r.q / r.q) (j / r.n / r.n) := by
    rw [show u.value Q = _ from (C42_hex_interpolate r (unit j) Q).1, hu]
    rfl
  have hg0 : u.grad Q 0 = r.G (Q % r.q) (j % r.n) * r.B (Q / r.q % r.q) (j / r.n % r.n) * r.B (Q / r.q / r.q) (j / r.n / r.n) := by
    rw [show u.grad Q 0 = _ from (C42_hex_interpolate r (unit j) Q).2 0 (by norm_num), hu]
    rfl
  have hg1 : u.grad Q 1 = r.B (Q % r.q) (j % r.n) * r.G (Q / r.q % r.q) (j / r.n % r.n) * r.B (Q / r.q / r.q) (j / r.n / r.n) := by
    rw [show u.grad Q 1 = _ from (C42_hex_interpolate r (unit j) Q).2 1 (by norm_num), hu]
    rfl
  have hg2 : u.grad Q 2 = r.B (Q % r.q) (j % r.n) * r.B (Q / r.q % r.q) (j / r.n % r.n) * r.G (Q / r.q / r.q) (j / r.n / r.n) := by
    rw [show u.grad Q 2 = _ from (C42_hex_interpolate r (unit j) Q).2 2 (by norm_num), hu]
    rfl
  simp only [sum_range_succ, range_zero, sum_empty, hv, hg0, hg1, hg2, Hex.applyShape, sumTo_eq, hy, hz]
  exact ⟨trivial, fun _ => trivial⟩

/-! ### Layout -/

/-- **C42, layout**: reading sources and fluxes at the computed positions reads each component exactly once: the positions of a source with `c · m` and a
flux with `c · dim · m` entries are in range and different, and `m` is what the code computes as `ntrial` from either size. -/
theorem C42_layout (dim c m : ℕ) (hd : 0 < dim) (hc : 0 < c) :
    ntrial dim c (c * m) 0 = m ∧ ntrial dim c 0 (c * dim * m) = m ∧ ntrial dim c (c * m) (c * dim * m) = m ∧
    (∀ i < c, ∀ j < m, flatSource m i j < c * m) ∧ (∀ i < c, ∀ k < dim, ∀ j < m, flatFlux dim m i k j < c * dim * m) ∧
    (∀ i i' j j', j < m → j' < m → flatSource m i j = flatSource m i' j' → i = i' ∧ j = j') ∧
    (∀ i i' k k' j j', k < dim → k' < dim → j < m → j' < m → flatFlux dim m i k j = flatFlux dim m i' k' j' → i = i' ∧ k = k' ∧ j = j') := by
  have h1 : c * dim * m / dim = c * m := by
    rw [show c * dim * m = dim * (c * m) by ring, Nat.mul_div_cancel_left _ hd]
  have hinj : ∀ {n e q e' q' : ℕ}, q < n → q' < n → e * n + q = e' * n + q' → e = e' ∧ q = q' := by
    intro n e q e' q' hq hq' h
    have he : e = e' := by rw [← div_flat e hq, ← div_flat e' hq', h]
    exact ⟨he, by subst he; omega⟩
  refine ⟨?_, ?_, ?_, ?_, ?_, ?_, ?_⟩
  · simp [ntrial, Nat.mul_div_cancel_left _ hc]
  · simp [ntrial, h1, Nat.mul_div_cancel_left _ hc]
  · simp [ntrial, h1, Nat.mul_div_cancel_left _ hc]
  · intro i hi j hj
    unfold flatSource
    calc i * m + j < i * m + m := by omega
      _ = (i + 1) * m := by ring
      _ ≤ c * m := Nat.mul_le_mul_right _ hi
  · intro i hi k hk j hj
    unfold flatFlux
    have h2 : i * dim + k < c * dim := by
      calc i * dim + k < i * dim + dim := by omega
        _ = (i + 1) * dim := by ring
        _ ≤ c * dim := Nat.mul_le_mul_right _ hi
    calc (i * dim + k) * m + j < (i * dim + k) * m + m := by omega
      _ = (i * dim + k + 1) * m := by ring
      _ ≤ c * dim * m := Nat.mul_le_mul_right _ h2
  · intro i i' j j' hj hj' h
    exact hinj hj hj' h
  · intro i i' k k' j j' hk hk' hj hj' h
    obtain ⟨h2, h3⟩ := hinj hj hj' h
    obtain ⟨h4, h5⟩ := hinj hk hk' h2
    exact ⟨h4, h5, h3⟩

/-! ### Example: bilinear element, one point at (1/2, 1/2) scaled by 2 to stay in the integers -/

private def lin : Rule ℤ := ⟨2, 1, fun j x => if j = 0 then 2 - x else x, fun j _ => if j = 0 then -2 else 2, fun _ => 1, fun _ => 1⟩

example : (Quad.interpolate lin (fun a => [1, 2, 3, 5].getD a 0)).value 0 = 11 ∧ (Quad.interpolate lin (fun a => [1, 2, 3, 5].getD a 0)).grad 0 0 = 6 ∧
    (Quad.interpolate lin (fun a => [1, 2, 3, 5].getD a 0)).grad 0 1 = 10 := by decide

end Serac.C42
