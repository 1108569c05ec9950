import Verif.Proofs.SimplexShape
import Mathlib.Analysis.SpecialFunctions.Pow.Real
import Mathlib.Tactic.Linarith
import Mathlib.Tactic.Positivity
/-!
# C17: nodal bases interpolate

`s5` is any real with `s5 ^ 2 = 5`: the statements are exact for the square root of five.  The code uses a 18-digit literal for it and
decimal literals for the Gauss-Legendre bases, for which the identities fail by tiny amounts; those are bounded.
-/

noncomputable section
namespace Serac.C17
open Serac Serac.Nodal

/-- The `n` Gauss-Lobatto points of `[0, 1]`: the end points and, inside, the zeros of the derivative of the Legendre polynomial of degree
`n - 1` moved to `[0, 1]` (the middle for `n = 3`, the zeros of `5 x^2 - 5 x + 1` for `n = 4`). -/
def gaussLobatto (s5 : ℝ) : (n : ℕ) → Fin n → ℝ
  | 1 => ![1 / 2]
  | 2 => ![0, 1]
  | 3 => ![0, 1 / 2, 1]
  | 4 => ![0, (5 - s5) / 10, (5 + s5) / 10, 1]
  | _ => fun _ => 0

example (s5 : ℝ) (h : s5 ^ 2 = 5) : 5 * (gaussLobatto s5 4 1) ^ 2 - 5 * gaussLobatto s5 4 1 + 1 = 0 := by
  simp [gaussLobatto]; linear_combination (1 / 20) * h

/-- **C17, one dimension: one at the own node, zero at the others.** -/
theorem C17_lobatto_delta (s5 : ℝ) (h : s5 ^ 2 = 5) (n : ℕ) (h1 : 1 ≤ n) (h4 : n ≤ 4) (i j : Fin n) :
    lobatto s5 n (gaussLobatto s5 n j) i = if i = j then 1 else 0 := by
  interval_cases n <;> fin_cases i <;> fin_cases j <;>
    simp only [lobatto, gaussLobatto, Fin.isValue, Fin.reduceFinMk, Fin.mk_one, Fin.zero_eta, Matrix.cons_val, Fin.reduceEq, if_true, if_false] <;> norm_num <;>
    try (first | s5ring h | (right; s5ring h))

/-- **C17, one dimension: the functions sum to one.** -/
theorem C17_lobatto_sum (s5 : ℝ) (h : s5 ^ 2 = 5) (n : ℕ) (h1 : 1 ≤ n) (h4 : n ≤ 4) (x : ℝ) : ∑ i, lobatto s5 n x i = 1 := by
  interval_cases n <;> simp [lobatto, Fin.sum_univ_succ] <;> norm_num <;> s5ring h

/-- **C17, one dimension: the derivative routine.** -/
theorem C17_lobatto_derivative (s5 : ℝ) (h : s5 ^ 2 = 5) (n : ℕ) (h1 : 1 ≤ n) (h4 : n ≤ 4) (x : ℝ) (i : Fin n) :
    HasDerivAt (fun x => lobatto s5 n x i) (lobattoDerivative s5 n x i) x := by
  interval_cases n <;> fin_cases i <;>
    simp only [lobatto, lobattoDerivative, Fin.isValue, Fin.reduceFinMk, Fin.mk_one, Fin.zero_eta, Matrix.cons_val] <;> (hd; norm_num; try s5ring h)

/-- **C17, Gauss-Lobatto points.**  The tabulated points are the exact ones to sixteen digits. -/
theorem C17_lobatto_nodes (s5 : ℝ) (h : s5 ^ 2 = 5) (h0 : 0 ≤ s5) (n : ℕ) (h1 : 2 ≤ n) (h4 : n ≤ 4) (i : Fin n) :
    |lobattoNodes n i - gaussLobatto s5 n i| ≤ 1e-16 := by
  have a : 2.2360679774997896 ≤ s5 := by nlinarith
  have b : s5 ≤ 2.2360679774997897 := by nlinarith
  interval_cases n <;> fin_cases i <;> simp [lobattoNodes, gaussLobatto, abs_le] <;> norm_num <;> constructor <;> linarith

/-- **C17, the literal for the square root of five.**  With the literal the cubic basis does not sum to one away from the end points; the
excess is below 6e-16 times `x (1 - x)`. -/
theorem C17_sqrt5_literal (x : ℝ) :
    ∑ i, lobatto sqrt5 4 x i = 1 + (sqrt5 ^ 2 - 5) * (x * (1 - x)) ∧ 0 < sqrt5 ^ 2 - 5 ∧ sqrt5 ^ 2 - 5 < 6e-16 := by
  refine ⟨?_, by norm_num [sqrt5], by norm_num [sqrt5]⟩
  simp [lobatto, Fin.sum_univ_succ]; norm_num; ring

/-! ### Gauss-Legendre -/

/-- **C17, Gauss-Legendre basis (partial: up to rounding of the literals).**  At the tabulated Gauss points the functions are one at their
own point and zero at the others to within 3e-14. -/
theorem C17_legendre_delta_partial (n : ℕ) (h1 : 1 ≤ n) (h4 : n ≤ 4) (i j : Fin n) :
    |gaussLegendre n (legendreNodes n j) i - if i = j then 1 else 0| ≤ 3e-14 := by
  interval_cases n <;> fin_cases i <;> fin_cases j <;> simp [gaussLegendre, legendreNodes, abs_le] <;> norm_num

/-- **C17, Gauss-Legendre basis (partial): the sum is one to within 1e-23 on the reference segment.** -/
theorem C17_legendre_sum_partial (n : ℕ) (h1 : 1 ≤ n) (h4 : n ≤ 4) (x : ℝ) (hx0 : 0 ≤ x) (hx1 : x ≤ 1) :
    |∑ i, gaussLegendre n x i - 1| ≤ 1e-23 := by
  have h2 : 0 ≤ x ^ 2 := by positivity
  have h2' : x ^ 2 ≤ 1 := by nlinarith
  have h3 : 0 ≤ x ^ 3 := by positivity
  have h3' : x ^ 3 ≤ 1 := by nlinarith
  interval_cases n <;> simp [gaussLegendre, Fin.sum_univ_succ, abs_le] <;> norm_num <;> constructor <;> ring_nf <;> linarith

/-- **C17, Gauss-Legendre basis (partial): the derivative routine, to within 1e-23 on the reference segment.** -/
theorem C17_legendre_derivative_partial (n : ℕ) (h1 : 1 ≤ n) (h4 : n ≤ 4) (x : ℝ) (hx0 : 0 ≤ x) (hx1 : x ≤ 1) (i : Fin n) :
    ∃ d, HasDerivAt (fun x => gaussLegendre n x i) d x ∧ |gaussLegendreDerivative n x i - d| ≤ 1e-23 := by
  have h2 : 0 ≤ x ^ 2 := by positivity
  have h2' : x ^ 2 ≤ 1 := by nlinarith
  interval_cases n <;> fin_cases i <;>
    simp only [gaussLegendre, gaussLegendreDerivative, Fin.isValue, Fin.reduceFinMk, Fin.mk_one, Fin.zero_eta, Matrix.cons_val] <;>
    (refine ⟨_, by (repeat' first
      | exact hasDerivAt_const _ _ | exact hasDerivAt_id' _ | apply HasDerivAt.fun_add | apply HasDerivAt.fun_sub
      | apply HasDerivAt.fun_mul | apply HasDerivAt.fun_neg), ?_⟩
     rw [abs_le]; (try norm_num); try (constructor <;> ring_nf <;> linarith))

/-! ### Quadrilaterals and hexahedra -/

/-- A loop whose body stores a block of `m` consecutive entries. -/
private theorem block {V : Type} (m : ℕ) (g : ℕ → ℕ → V) (body : ℕ → (ℕ → V) × ℕ → (ℕ → V) × ℕ)
    (hb : ∀ j a c, body j (a, c) = (fun k => if c ≤ k ∧ k < c + m then g j (k - c) else a k, c + m)) (hm : 0 < m) (n : ℕ) (a : ℕ → V)
    (c : ℕ) : forRange 0 n body (a, c) =
      (fun k => if c ≤ k ∧ k < c + n * m then g ((k - c) / m) ((k - c) % m) else a k, c + n * m) := by
  induction n with
  | zero =>
    rw [forRange_ge _ _ (le_refl _)]
    have : ∀ k, ¬ (c ≤ k ∧ k < c) := fun k => by omega
    simp [this]
  | succ n ih =>
    have := forRange_succ 0 n body (a, c)
    simp only [Nat.zero_add] at this
    rw [this, ih, hb]
    have e : (n + 1) * m = n * m + m := by ring
    refine Prod.ext (funext fun k => ?_) (by dsimp only; omega)
    dsimp only
    by_cases h1 : c + n * m ≤ k ∧ k < c + n * m + m
    · rw [if_pos h1, if_pos (by omega)]
      obtain ⟨r, hr⟩ := Nat.exists_eq_add_of_le h1.1
      have hrm : r < m := by omega
      have h3 : k - c = r + m * n := by rw [Nat.mul_comm m n]; omega
      rw [h3, Nat.add_mul_div_left _ _ hm, Nat.div_eq_of_lt hrm, Nat.zero_add, Nat.add_mul_mod_self_left, Nat.mod_eq_of_lt hrm]
      congr 1; omega
    · rw [if_neg h1]
      by_cases h2 : c ≤ k ∧ k < c + n * m
      · rw [if_pos h2, if_pos (by omega)]
      · rw [if_neg h2, if_neg (by omega)]

private theorem push_block {V : Type} (v : ℕ → V) (i : ℕ) (a : ℕ → V) (c : ℕ) :
    push (v i) (a, c) = (fun k => if c ≤ k ∧ k < c + 1 then (fun i _ => v i) i (k - c) else a k, c + 1) := by
  unfold push
  refine Prod.ext (funext fun k => ?_) rfl
  dsimp only
  by_cases h : k = c
  · subst h; simp
  · rw [Function.update_of_ne h, if_neg (by omega)]

/-- Two nested loops of stores. -/
private theorem loop2 {V : Type} (n : ℕ) (hn : 0 < n) (v : ℕ → ℕ → V) (a : ℕ → V) (c : ℕ) :
    forRange 0 n (fun j st => forRange 0 n (fun i st => push (v j i) st) st) (a, c) =
      (fun k => if c ≤ k ∧ k < c + n * n then v ((k - c) / n) ((k - c) % n) else a k, c + n * n) := by
  refine block n v _ (fun j a c => ?_) hn n a c
  rw [block 1 (fun i _ => v j i) _ (fun i a c => push_block (fun i => v j i) i a c) (by omega)]
  simp

/-- Three nested loops of stores. -/
private theorem loop3 {V : Type} (n : ℕ) (hn : 0 < n) (v : ℕ → ℕ → ℕ → V) (a : ℕ → V) (c : ℕ) :
    forRange 0 n (fun k st => forRange 0 n (fun j st => forRange 0 n (fun i st => push (v k j i) st) st) st) (a, c) =
      (fun r => if c ≤ r ∧ r < c + n * (n * n) then v ((r - c) / (n * n)) ((r - c) % (n * n) / n) ((r - c) % (n * n) % n) else a r,
        c + n * (n * n)) := by
  refine block (n * n) (fun k r => v k (r / n) (r % n)) _ (fun k a c => ?_) (Nat.mul_pos hn hn) n a c
  rw [loop2 n hn (fun j i => v k j i)]

private theorem at'_lt {n : ℕ} (v : Fin n → ℝ) (i : Fin n) : at' v i = v i := by simp [at']

private theorem idx2 {n : ℕ} (i j : Fin n) : (i.1 + n * j) / n = j ∧ (i.1 + n * j) % n = i ∧ i.1 + n * j < n * n := by
  have hn : 0 < n := i.pos
  refine ⟨by rw [Nat.add_mul_div_left _ _ hn, Nat.div_eq_of_lt i.2, Nat.zero_add], by
    rw [Nat.add_mul_mod_self_left, Nat.mod_eq_of_lt i.2], ?_⟩
  have : n * (j + 1) ≤ n * n := Nat.mul_le_mul_left n j.2
  have := i.2
  rw [Nat.mul_add] at *
  omega

private theorem idx3 {n : ℕ} (i j k : Fin n) : (i.1 + n * (j + n * k)) / (n * n) = k ∧ (i.1 + n * (j + n * k)) % (n * n) / n = j ∧
    (i.1 + n * (j + n * k)) % (n * n) % n = i ∧ i.1 + n * (j + n * k) < n * (n * n) := by
  obtain ⟨a, b, c⟩ := idx2 i j
  have e : i.1 + n * (j + n * k) = (i.1 + n * j) + n * n * k := by ring
  have hn : 0 < n * n := Nat.mul_pos i.pos i.pos
  rw [e, Nat.add_mul_div_left _ _ hn, Nat.div_eq_of_lt c, Nat.zero_add, Nat.add_mul_mod_self_left, Nat.mod_eq_of_lt c]
  refine ⟨rfl, a, b, ?_⟩
  have : n * n * (k + 1) ≤ n * n * n := Nat.mul_le_mul_left _ k.2
  rw [Nat.mul_add, Nat.mul_one] at this
  rw [Nat.mul_assoc n n n] at this
  omega

/-- Entry `i + (p+1) j` of the quadrilateral's arrays, whatever the one-dimensional basis. -/
theorem quad_entry (s5 : ℝ) (p : ℕ) (xi : Fin 2 → ℝ) (i j : Fin (p + 1)) :
    quadShape s5 p xi (i + (p + 1) * j) = lobatto s5 (p + 1) (xi 0) i * lobatto s5 (p + 1) (xi 1) j ∧
      quadShapeGrad s5 p xi (i + (p + 1) * j) = ![lobattoDerivative s5 (p + 1) (xi 0) i * lobatto s5 (p + 1) (xi 1) j,
        lobatto s5 (p + 1) (xi 0) i * lobattoDerivative s5 (p + 1) (xi 1) j] := by
  obtain ⟨a, b, c⟩ := idx2 i j
  unfold quadShape quadShapeGrad
  rw [loop2 (p + 1) (by omega) (fun j i => at' (lobatto s5 (p + 1) (xi 0)) i * at' (lobatto s5 (p + 1) (xi 1)) j),
    loop2 (p + 1) (by omega) (fun j i => ![at' (lobattoDerivative s5 (p + 1) (xi 0)) i * at' (lobatto s5 (p + 1) (xi 1)) j,
      at' (lobatto s5 (p + 1) (xi 0)) i * at' (lobattoDerivative s5 (p + 1) (xi 1)) j])]
  dsimp only
  rw [if_pos (by omega), if_pos (by omega), Nat.sub_zero, a, b]
  simp only [at'_lt, and_self]

theorem hex_entry (s5 : ℝ) (p : ℕ) (xi : Fin 3 → ℝ) (i j k : Fin (p + 1)) :
    hexShape s5 p xi (i + (p + 1) * (j + (p + 1) * k)) =
      lobatto s5 (p + 1) (xi 0) i * lobatto s5 (p + 1) (xi 1) j * lobatto s5 (p + 1) (xi 2) k ∧
      hexShapeGrad s5 p xi (i + (p + 1) * (j + (p + 1) * k)) =
        ![lobattoDerivative s5 (p + 1) (xi 0) i * lobatto s5 (p + 1) (xi 1) j * lobatto s5 (p + 1) (xi 2) k,
          lobatto s5 (p + 1) (xi 0) i * lobattoDerivative s5 (p + 1) (xi 1) j * lobatto s5 (p + 1) (xi 2) k,
          lobatto s5 (p + 1) (xi 0) i * lobatto s5 (p + 1) (xi 1) j * lobattoDerivative s5 (p + 1) (xi 2) k] := by
  obtain ⟨a, b, c, d⟩ := idx3 i j k
  unfold hexShape hexShapeGrad
  rw [loop3 (p + 1) (by omega) (fun k j i => at' (lobatto s5 (p + 1) (xi 0)) i * at' (lobatto s5 (p + 1) (xi 1)) j *
      at' (lobatto s5 (p + 1) (xi 2)) k),
    loop3 (p + 1) (by omega) (fun k j i =>
      ![at' (lobattoDerivative s5 (p + 1) (xi 0)) i * at' (lobatto s5 (p + 1) (xi 1)) j * at' (lobatto s5 (p + 1) (xi 2)) k,
      at' (lobatto s5 (p + 1) (xi 0)) i * at' (lobattoDerivative s5 (p + 1) (xi 1)) j * at' (lobatto s5 (p + 1) (xi 2)) k,
      at' (lobatto s5 (p + 1) (xi 0)) i * at' (lobatto s5 (p + 1) (xi 1)) j * at' (lobattoDerivative s5 (p + 1) (xi 2)) k])]
  dsimp only
  rw [if_pos (by omega), if_pos (by omega), Nat.sub_zero, a, b, c]
  simp only [at'_lt, and_self]

variable (s5 : ℝ) (h : s5 ^ 2 = 5) (p : ℕ) (hp : p ≤ 3)
include h hp

/-- **C17, quadrilaterals.**  Shape function `i + (p+1) j` is one at the node in column `i` and row `j` and zero at the other nodes. -/
theorem C17_quad_delta (i j i' j' : Fin (p + 1)) :
    quadShape s5 p ![gaussLobatto s5 (p + 1) i', gaussLobatto s5 (p + 1) j'] (i + (p + 1) * j) = if i = i' ∧ j = j' then 1 else 0 := by
  rw [(quad_entry s5 p _ i j).1]
  show lobatto s5 (p + 1) (gaussLobatto s5 (p + 1) i') i * lobatto s5 (p + 1) (gaussLobatto s5 (p + 1) j') j = _
  rw [C17_lobatto_delta s5 h _ (by omega) (by omega), C17_lobatto_delta s5 h _ (by omega) (by omega)]
  by_cases h1 : i = i' <;> by_cases h2 : j = j' <;> simp [h1, h2]

/-- **C17, quadrilaterals: sum and gradients.** -/
theorem C17_quad_sum_grad (x y : ℝ) :
    (∑ j : Fin (p + 1), ∑ i : Fin (p + 1), quadShape s5 p ![x, y] (i + (p + 1) * j) = 1) ∧
    ∀ i j : Fin (p + 1),
      HasDerivAt (fun t => quadShape s5 p ![t, y] (i + (p + 1) * j)) (quadShapeGrad s5 p ![x, y] (i + (p + 1) * j) 0) x ∧
      HasDerivAt (fun t => quadShape s5 p ![x, t] (i + (p + 1) * j)) (quadShapeGrad s5 p ![x, y] (i + (p + 1) * j) 1) y := by
  refine ⟨?_, fun i j => ⟨?_, ?_⟩⟩
  · simp only [(quad_entry s5 p _ _ _).1, Matrix.cons_val]
    simp only [← Finset.sum_mul, C17_lobatto_sum s5 h (p + 1) (by omega) (by omega), one_mul]
  · simp only [(quad_entry s5 p _ _ _).1, (quad_entry s5 p _ _ _).2, Matrix.cons_val]
    exact (C17_lobatto_derivative s5 h _ (by omega) (by omega) x i).mul_const _
  · simp only [(quad_entry s5 p _ _ _).1, (quad_entry s5 p _ _ _).2, Matrix.cons_val]
    exact (C17_lobatto_derivative s5 h _ (by omega) (by omega) y j).const_mul _

/-- **C17, hexahedra.** -/
theorem C17_hex_delta (i j k i' j' k' : Fin (p + 1)) :
    hexShape s5 p ![gaussLobatto s5 (p + 1) i', gaussLobatto s5 (p + 1) j', gaussLobatto s5 (p + 1) k']
      (i + (p + 1) * (j + (p + 1) * k)) = if i = i' ∧ j = j' ∧ k = k' then 1 else 0 := by
  rw [(hex_entry s5 p _ i j k).1]
  show lobatto s5 (p + 1) (gaussLobatto s5 (p + 1) i') i * lobatto s5 (p + 1) (gaussLobatto s5 (p + 1) j') j *
    lobatto s5 (p + 1) (gaussLobatto s5 (p + 1) k') k = _
  rw [C17_lobatto_delta s5 h _ (by omega) (by omega), C17_lobatto_delta s5 h _ (by omega) (by omega),
    C17_lobatto_delta s5 h _ (by omega) (by omega)]
  by_cases h1 : i = i' <;> by_cases h2 : j = j' <;> by_cases h3 : k = k' <;> simp [h1, h2, h3]

/-- **C17, hexahedra: sum and gradients.** -/
theorem C17_hex_sum_grad (x y z : ℝ) :
    (∑ k : Fin (p + 1), ∑ j : Fin (p + 1), ∑ i : Fin (p + 1), hexShape s5 p ![x, y, z] (i + (p + 1) * (j + (p + 1) * k)) = 1) ∧
    ∀ i j k : Fin (p + 1), ∀ r : ℕ, r = i + (p + 1) * (j + (p + 1) * k) →
      HasDerivAt (fun t => hexShape s5 p ![t, y, z] r) (hexShapeGrad s5 p ![x, y, z] r 0) x ∧
      HasDerivAt (fun t => hexShape s5 p ![x, t, z] r) (hexShapeGrad s5 p ![x, y, z] r 1) y ∧
      HasDerivAt (fun t => hexShape s5 p ![x, y, t] r) (hexShapeGrad s5 p ![x, y, z] r 2) z := by
  refine ⟨?_, ?_⟩
  · simp only [(hex_entry s5 p _ _ _ _).1, Matrix.cons_val]
    simp only [← Finset.sum_mul, C17_lobatto_sum s5 h (p + 1) (by omega) (by omega), one_mul]
  · rintro i j k _ rfl
    refine ⟨?_, ?_, ?_⟩
    · simp only [(hex_entry s5 p _ _ _ _).1, (hex_entry s5 p _ _ _ _).2, Matrix.cons_val]
      exact ((C17_lobatto_derivative s5 h _ (by omega) (by omega) x i).mul_const _).mul_const _
    · simp only [(hex_entry s5 p _ _ _ _).1, (hex_entry s5 p _ _ _ _).2, Matrix.cons_val]
      exact ((C17_lobatto_derivative s5 h _ (by omega) (by omega) y j).const_mul _).mul_const _
    · simp only [(hex_entry s5 p _ _ _ _).1, (hex_entry s5 p _ _ _ _).2, Matrix.cons_val]
      exact (C17_lobatto_derivative s5 h _ (by omega) (by omega) z k).const_mul _

omit hp

/-! ### Triangles and tetrahedra

For each order: the functions are one at their own node and zero at the others, the gradient routine returns the partial derivatives, and
interpolation at the nodes reproduces every polynomial of total degree at most the order; in particular (degree 0) the functions sum to one. -/

/-- What is claimed of a family of shape functions `N` with gradients `G`, nodes `node` and order `d`. -/
structure IsNodalBasis {D n : ℕ} (d : ℕ) (node : Fin n → Fin D → ℝ) (N : (Fin D → ℝ) → Fin n → ℝ) (G : (Fin D → ℝ) → Fin n → Fin D → ℝ) :
    Prop where
  delta : ∀ i j, N (node j) i = if i = j then 1 else 0
  gradient : ∀ x i k, HasDerivAt (fun t => N (Function.update x k t) i) (G x i k) (x k)
  reproduces : ∀ e : Fin D → ℕ, ∑ k, e k ≤ d → ∀ x, ∑ i, (∏ k, node i k ^ e k) * N x i = ∏ k, x k ^ e k
  sum_one : ∀ x, ∑ i, N x i = 1

omit h in
private theorem mk_basis {D n d : ℕ} {node : Fin n → Fin D → ℝ} {N : (Fin D → ℝ) → Fin n → ℝ} {G : (Fin D → ℝ) → Fin n → Fin D → ℝ}
    (hδ : ∀ i j, N (node j) i = if i = j then 1 else 0) (hg : ∀ x i k, HasDerivAt (fun t => N (Function.update x k t) i) (G x i k) (x k))
    (hm : ∀ i, (fun x => N x i) ∈ polyDeg D d) (hn : Fintype.card (Expo D d) = n) : IsNodalBasis d node N G := by
  have hr : ∀ e : Fin D → ℕ, ∑ k, e k ≤ d → ∀ x, ∑ i, (∏ k, node i k ^ e k) * N x i = ∏ k, x k ^ e k := fun e he x =>
    reproduces (fun i x => N x i) node hm hδ hn (monomial_mem e he) x
  refine ⟨hδ, hg, hr, fun x => ?_⟩
  have := hr (fun _ => 0) (by simp) x
  simpa using this

/-- **C17, triangles.** -/
theorem C17_triangle :
    IsNodalBasis 1 tri1Node (fun x => tri1 s5 (x 0) (x 1)) (fun x => tri1Grad s5 (x 0) (x 1)) ∧
    IsNodalBasis 2 tri2Node (fun x => tri2 s5 (x 0) (x 1)) (fun x => tri2Grad s5 (x 0) (x 1)) ∧
    IsNodalBasis 3 (tri3Node (gaussLobatto s5 4 1) (gaussLobatto s5 4 2)) (fun x => tri3 s5 (x 0) (x 1))
      (fun x => tri3Grad s5 (x 0) (x 1)) := by
  refine ⟨mk_basis (tri1_delta h) (fun x i k => ?_) tri1_mem (by decide), mk_basis (tri2_delta h) (fun x i k => ?_) tri2_mem (by decide),
    mk_basis (tri3_delta h) (fun x i k => ?_) (tri3_mem h) (by decide)⟩
  · have := tri1_grad (s5 := s5) (x 0) (x 1) i
    fin_cases k
    · simpa [Function.update] using this.1
    · simpa [Function.update] using this.2
  · have := tri2_grad (s5 := s5) (x 0) (x 1) i
    fin_cases k
    · simpa [Function.update] using this.1
    · simpa [Function.update] using this.2
  · have := tri3_grad h (x 0) (x 1) i
    fin_cases k
    · simpa [Function.update] using this.1
    · simpa [Function.update] using this.2

/-- **C17, tetrahedra.** -/
theorem C17_tetrahedron :
    IsNodalBasis 1 tet1Node (fun x => tet1 s5 (x 0) (x 1) (x 2)) (fun x => tet1Grad s5 (x 0) (x 1) (x 2)) ∧
    IsNodalBasis 2 tet2Node (fun x => tet2 s5 (x 0) (x 1) (x 2)) (fun x => tet2Grad s5 (x 0) (x 1) (x 2)) ∧
    IsNodalBasis 3 (tet3Node (gaussLobatto s5 4 1) (gaussLobatto s5 4 2)) (fun x => tet3 s5 (x 0) (x 1) (x 2))
      (fun x => tet3Grad s5 (x 0) (x 1) (x 2)) := by
  refine ⟨mk_basis (tet1_delta h) (fun x i k => ?_) tet1_mem (by decide), mk_basis (tet2_delta h) (fun x i k => ?_) tet2_mem (by decide),
    mk_basis (tet3_delta h) (fun x i k => ?_) (tet3_mem h) (by decide)⟩
  · have := tet1_grad (s5 := s5) (x 0) (x 1) (x 2) i
    fin_cases k
    · simpa [Function.update] using this.1
    · simpa [Function.update] using this.2.1
    · simpa [Function.update] using this.2.2
  · have := tet2_grad (s5 := s5) (x 0) (x 1) (x 2) i
    fin_cases k
    · simpa [Function.update] using this.1
    · simpa [Function.update] using this.2.1
    · simpa [Function.update] using this.2.2
  · have := tet3_grad h (x 0) (x 1) (x 2) i
    fin_cases k
    · simpa [Function.update] using this.1
    · simpa [Function.update] using this.2.1
    · simpa [Function.update] using this.2.2

/-! ### Examples -/

omit h

example : (Real.sqrt 5) ^ 2 = 5 := Real.sq_sqrt (by norm_num)
example : tri3 (Real.sqrt 5) (1 / 3) (1 / 3) 5 = 1 :=
  (C17_triangle (Real.sqrt 5) (Real.sq_sqrt (by norm_num))).2.2.delta 5 5
example : quadShape (Real.sqrt 5) 1 ![1 / 4, 1 / 2] 2 = 3 / 8 := by
  refine (quad_entry _ 1 _ 0 1).1.trans ?_
  norm_num [lobatto]

end Serac.C17
