import Verif.Model.SolidResidual
import Verif.Props.C51
import Verif.Props.C18
import Verif.Props.C17
import Verif.Props.C33
import Verif.Model.NodalBasis
import Mathlib.LinearAlgebra.Matrix.Determinant.Basic
import Mathlib.Tactic.FinCases
/-!
# C71: internal forces are in equilibrium

Spec.  What a user of mechanics expects of the vector of nodal forces: it is the virtual work of the stress on the fields of the nodes (`C71_virtual_work`), the
forces are in balance (`C71_force`), so are their moments (`C71_moment`, `C71_moment_off`), the forces turn with the body (`C71_frame`), moving a body without
stress costs nothing (`C71_rigid`), the forces of a hyperelastic body are the derivatives of its energy (`C71_energy`), and a uniform state of stress needs forces
on the boundary only, those of the tractions (`C71_patch_triangles`, `C71_patch_tetrahedra`, `C71_patch_quadrilaterals`).

The vector is the one the element kernel, the transformations, the functor and gather and scatter compute together.
-/

noncomputable section
namespace Serac.C71
open Serac.Tensor Serac.Transform Serac.Kernels Serac.Piola Serac.Solid Serac.Mat Finset
open scoped Matrix

abbrev M (n : ℕ) := Matrix (Fin n) (Fin n) ℝ

/-! ## Spec -/

/-- Shape functions and gradients at the quadrature points, and the weights of the rule. -/
structure Shapes where
  phi : ℕ → ℕ → ℝ
  dphi : ℕ → ℕ → ℕ → ℝ
  wt : ℕ → ℝ
  phiG : ℕ → ℕ → ℝ
  dphiG : ℕ → ℕ → ℕ → ℝ

variable {d : Dim} (S : Setup d) (s : Shapes)

/-- The elements mean their shape functions. -/
structure Meaning : Prop where
  trial : C51.Trial S.E s.phi s.dphi
  test : C51.Test S.E s.phi s.dphi s.wt
  geom : C51.Trial S.G s.phiG s.dphiG
  dim : S.E.dim = d.n
  mem : ∀ e ∈ S.elements, e < S.ne

/-- Value and derivative on the parent element of a nodal field at point `Q` of element `e`. -/
def value (v : S.Nodal) (e Q : ℕ) : Fin d.n → ℝ := fun i => ∑ a ∈ range S.E.ndof, v (S.conn e a) i * s.phi Q a
def parGrad (v : S.Nodal) (e Q : ℕ) : M d.n := fun i k => ∑ a ∈ range S.E.ndof, v (S.conn e a) i * s.dphi Q a k

/-- Derivative of the position with respect to the parent coordinates. -/
def jac (e Q : ℕ) : M d.n := fun i k => ∑ b ∈ range S.G.ndof, S.pos (S.connG e b) i * s.dphiG Q b k

/-- Derivative with respect to the reference position. -/
def grad (v : S.Nodal) (e Q : ℕ) : M d.n := parGrad S s v e Q * (jac S s e Q)⁻¹

/-- `∫` over the domain: the sum over its elements (`ee.1` the element, `ee.2` its place in the list) and points of weight times volume times integrand. -/
def integral (f : ℕ × ℕ → ℕ → ℝ) : ℝ :=
  (S.elements.zipIdx.map fun ee => ∑ Q ∈ range S.E.npts, s.wt Q * ((jac S s ee.1 Q).det * f ee Q)).sum

/-- No element is degenerate. -/
def Nondegenerate : Prop := ∀ e ∈ S.elements, ∀ Q < S.E.npts, (jac S s e Q).det ≠ 0

/-- The stress (first Piola if the switch is on) at every point. -/
def Stress (u : S.Nodal) (P : ℕ × ℕ → ℕ → M d.n) : Prop := ∀ ee ∈ S.elements.zipIdx, ∀ Q < S.E.npts,
  materialFlux (ops d) S.on (S.material (ee.2 * S.E.npts + Q)) (grad S s u ee.1 Q) = some (P ee Q)

theorem ops_exact : (d : Dim) → C33.Exact (ops d)
  | .two => C33.exact2
  | .three => C33.exact3

/-! ## Gathering and scattering -/

variable {S s}

theorem split {c n e t : ℕ} (ht : t < c * n) : (e * (c * n) + t) / (c * n) = e ∧ (e * (c * n) + t) % (c * n) = t :=
  ⟨by rw [Nat.mul_comm e, Nat.mul_add_div (by omega), Nat.div_eq_of_lt ht, Nat.add_zero], by rw [Nat.mul_comm e, Nat.mul_add_mod, Nat.mod_eq_of_lt ht]⟩

theorem gather_at {nn c ndof : ℕ} (conn : ℕ → ℕ → Fin nn) (u : Fin nn → Vec ℝ c) (e : ℕ) (i : Fin c) {k : ℕ} (hk : k < ndof) :
    gatherE ndof conn u (e * (c * ndof) + (i * ndof + k)) = u (conn e k) i := by
  have h : (i : ℕ) * ndof + k < c * ndof := by
    have := Nat.mul_le_mul_right ndof (Nat.succ_le_of_lt i.2)
    rw [Nat.succ_mul] at this
    omega
  unfold gatherE
  rw [(split h).1, (split h).2, Nat.mul_comm (i : ℕ), Nat.mul_add_mod, Nat.mod_eq_of_lt hk, Nat.mul_add_div (by omega), Nat.div_eq_of_lt hk, Nat.add_zero]
  simp [flatV]

/-- The scattered vector tested with a nodal field is the element vector tested with the gathered one. -/
theorem scatter_dot {nn c ndof ne : ℕ} (conn : ℕ → ℕ → Fin nn) (r : ℕ → ℝ) (v : Fin nn → Vec ℝ c) :
    ∑ n, ∑ i, scatterE ndof ne conn r n i * v n i =
      ∑ e ∈ range ne, ∑ k ∈ range ndof, ∑ i : Fin c, r (e * (c * ndof) + (i * ndof + k)) * v (conn e k) i := by
  unfold scatterE
  simp only [sum_mul]
  have : ∀ n : Fin nn, ∑ i : Fin c, ∑ e ∈ range ne, ∑ k ∈ range ndof, (if conn e k = n then r (e * (c * ndof) + (i * ndof + k)) else 0) * v n i =
      ∑ e ∈ range ne, ∑ k ∈ range ndof, if conn e k = n then ∑ i : Fin c, r (e * (c * ndof) + (i * ndof + k)) * v n i else 0 := by
    intro n
    rw [sum_comm]
    refine sum_congr rfl fun e _ => ?_
    rw [sum_comm]
    refine sum_congr rfl fun k _ => ?_
    split_ifs <;> simp
  simp only [this]
  rw [sum_comm]
  refine sum_congr rfl fun e _ => ?_
  rw [sum_comm]
  refine sum_congr rfl fun k _ => ?_
  simp

theorem list_sum_comm {A : Type} (l : List A) (t : Finset ℕ) (f : ℕ → A → ℝ) : ∑ e ∈ t, (l.map (f e)).sum = (l.map fun x => ∑ e ∈ t, f e x).sum := by
  induction l with
  | nil => simp
  | cons a l ih => simp only [List.map_cons, List.sum_cons, sum_add_distrib, ih]

theorem getD_zipIdx {l : List ℕ} {ee : ℕ × ℕ} (h : ee ∈ l.zipIdx) : l.getD ee.2 0 = ee.1 := by
  obtain ⟨h1, h2⟩ := List.mem_zipIdx' h
  rw [List.getD_eq_getElem?_getD, List.getElem?_eq_getElem h1, Option.getD_some, h2]

theorem mem_zipIdx_fst {l : List ℕ} {ee : ℕ × ℕ} (h : ee ∈ l.zipIdx) : ee.1 ∈ l := by
  obtain ⟨h1, h2⟩ := List.mem_zipIdx' h
  rw [h2]
  exact List.getElem_mem h1

/-! ## A point -/

theorem interp_eq {E : Elem ℝ} {phi dphi} (h : C51.Trial E phi dphi) {nn : ℕ} (conn : ℕ → ℕ → Fin nn) (u : Fin nn → Vec ℝ d.n) (e Q : ℕ) :
    Setup.interp (d := d) E (fun t => gatherE E.ndof conn u (e * (d.n * E.ndof) + t)) Q =
      (fun i => ∑ a ∈ range E.ndof, u (conn e a) i * phi Q a, fun i (k : Fin d.n) => ∑ a ∈ range E.ndof, u (conn e a) i * dphi Q a k) := by
  unfold Setup.interp
  congr 1
  · funext i
    simp only [interpolate, h.value]
    exact sum_congr rfl fun a ha => by rw [gather_at conn u e i (mem_range.1 ha)]
  · funext i k
    simp only [interpolate, h.grad]
    exact sum_congr rfl fun a ha => by rw [gather_at conn u e i (mem_range.1 ha)]

theorem jacobian_eq (hm : Meaning S s) {ee : ℕ × ℕ} (h : ee ∈ S.elements.zipIdx) (Q : ℕ) : S.jacobian ee.2 Q = jac S s ee.1 Q := by
  unfold Setup.jacobian
  rw [getD_zipIdx h, interp_eq hm.geom]
  rfl

/-- What the kernel computes at one point. -/
theorem point_eq {on : GeomNonlin} {ρ : ℝ} {material : M d.n → Option (M d.n)} {J : M d.n} (hJ : J.det ≠ 0) (u a : Vec ℝ d.n × Mat ℝ d.n d.n) :
    solidPoint d on ρ material J u a = (materialFlux (ops d) on material (u.2 * J⁻¹)).map fun P =>
      (fun i => J.det * (ρ * a.1 i), J.det • (P * Jᵀ⁻¹)) := by
  have hJT : (Jᵀ).det ≠ 0 := by rwa [Matrix.det_transpose]
  unfold solidPoint parentToPhysicalH1 stressFunctor physicalToParentH1
  simp only [loadJ_store, loadJT_store]
  rw [Transform.inv_eq d J hJ, Transform.inv_eq d Jᵀ hJT]
  simp only [Option.map_some, Option.bind_some, Tensor.dot_eq]
  cases materialFlux (ops d) on material (u.2 * J⁻¹) with
  | none => rfl
  | some P =>
    simp only [Option.map_some, Option.bind_some, smulM_eq, smulV_eq, Transform.det_eq, Matrix.det_transpose]
    rfl

/-- Source and flux on the parent element at the point. -/
def pt (S : Setup d) (s : Shapes) (u acc : S.Nodal) (ee : ℕ × ℕ) (Q : ℕ) : Vec ℝ d.n × M d.n :=
  ((materialFlux (ops d) S.on (S.material (ee.2 * S.E.npts + Q)) (grad S s u ee.1 Q)).map fun P : M d.n =>
    ((fun i => (jac S s ee.1 Q).det * (S.density * value S s acc ee.1 Q i) : Vec ℝ d.n),
      ((jac S s ee.1 Q).det • (P * (jac S s ee.1 Q)ᵀ⁻¹) : M d.n))).getD (0, 0)

/-- What the kernel contributes to node `a` of element `e`, component `i`, at the point. -/
theorem outcome (hm : Meaning S s) (hn : Nondegenerate S s) (u acc : S.Nodal) {ee : ℕ × ℕ} (h : ee ∈ S.elements.zipIdx) {Q : ℕ} (hQ : Q < S.E.npts) :
    S.pointFn acc (ee.2 * S.E.npts + Q)
        ((interpolate S.E fun p => gatherE S.E.ndof S.conn u (ee.1 * (d.n * S.E.ndof) + p)).value Q)
        ((interpolate S.E fun p => gatherE S.E.ndof S.conn u (ee.1 * (d.n * S.E.ndof) + p)).grad Q) =
      (flatV (pt S s u acc ee Q).1, flatM (pt S s u acc ee Q).2) := by
  have h1 : (ee.2 * S.E.npts + Q) / S.E.npts = ee.2 := by
    rw [Nat.mul_comm, Nat.mul_add_div (by omega), Nat.div_eq_of_lt hQ, Nat.add_zero]
  have h2 : (ee.2 * S.E.npts + Q) % S.E.npts = Q := by
    rw [Nat.mul_comm, Nat.mul_add_mod, Nat.mod_eq_of_lt hQ]
  unfold Setup.pointFn
  dsimp only
  rw [h1, h2, jacobian_eq hm h, point_eq (hn ee.1 (mem_zipIdx_fst h) Q hQ), getD_zipIdx h, interp_eq hm.trial]
  have h3 : ((fun i j => (interpolate S.E fun p => gatherE S.E.ndof S.conn u (ee.1 * (d.n * S.E.ndof) + p)).grad Q (i : ℕ) (j : ℕ)) : M d.n) =
      parGrad S s u ee.1 Q := congrArg Prod.snd (interp_eq hm.trial S.conn u ee.1 Q)
  rw [h3]
  rfl

/-- The element vector in closed form. -/
theorem element_vector (hm : Meaning S s) (hn : Nondegenerate S s) (u acc : S.Nodal) (e : ℕ) {k : ℕ} (hk : k < S.E.ndof) (i : Fin d.n) :
    evalKernel S.E S.E d.n d.n false false (S.pointFn acc) S.elements (gatherE S.E.ndof S.conn u) (fun _ => 0) (e * (d.n * S.E.ndof) + (i * S.E.ndof + k)) =
      (S.elements.zipIdx.map fun ee => if ee.1 = e then
        ∑ Q ∈ range S.E.npts, s.wt Q * ((pt S s u acc ee Q).1 i * s.phi Q k + ∑ l : Fin d.n, (pt S s u acc ee Q).2 i l * s.dphi Q k l) else 0).sum := by
  have hd : 0 < d.n := by cases d <;> decide
  have ht : (i : ℕ) * S.E.ndof + k < d.n * S.E.ndof := by
    have := Nat.mul_le_mul_right S.E.ndof (Nat.succ_le_of_lt i.2)
    rw [Nat.succ_mul] at this
    omega
  have e1 : ((i : ℕ) * S.E.ndof + k) / S.E.ndof = i := by
    rw [Nat.mul_comm, Nat.mul_add_div (by omega), Nat.div_eq_of_lt hk, Nat.add_zero]
  have e2 : ((i : ℕ) * S.E.ndof + k) % S.E.ndof = k := by
    rw [Nat.mul_comm, Nat.mul_add_mod, Nat.mod_eq_of_lt hk]
  rw [C51.eval_at hm.test d.n d.n hd (by rw [hm.dim]; exact hd) false false _ _ _ _ e _ ht, zero_add]
  congr 1
  refine List.map_congr_left fun ee hee => ?_
  by_cases he : ee.1 = e
  · rw [if_pos he, if_pos he]
    dsimp only
    unfold C51.weigh
    refine sum_congr rfl fun Q hQ => ?_
    simp only [Bool.false_eq_true, if_false]
    rw [outcome hm hn u acc hee (mem_range.1 hQ), e1, e2, hm.dim]
    dsimp only
    rw [← Fin.sum_univ_eq_sum_range fun l => flatM (pt S s u acc ee Q).2 i l * s.dphi Q k l]
    congr 2
    · have : flatV (pt S s u acc ee Q).1 (i : ℕ) = (pt S s u acc ee Q).1 i := by simp [flatV]
      exact congrArg (· * _) this
    · refine sum_congr rfl fun l _ => ?_
      have : flatM (pt S s u acc ee Q).2 (i : ℕ) (l : ℕ) = (pt S s u acc ee Q).2 i l := by simp [flatM]
      exact congrArg (· * _) this
  · rw [if_neg he, if_neg he]

/-- The residual tested with a nodal field, in terms of what the kernel computes at the points. -/
theorem tested (hm : Meaning S s) (hn : Nondegenerate S s) (u acc v : S.Nodal) :
    ∑ n, ∑ i, S.residual u acc n i * v n i = (S.elements.zipIdx.map fun ee => ∑ Q ∈ range S.E.npts, s.wt Q *
      ((∑ i, (pt S s u acc ee Q).1 i * value S s v ee.1 Q i) + ∑ i, ∑ l, (pt S s u acc ee Q).2 i l * parGrad S s v ee.1 Q i l)).sum := by
  unfold Setup.residual
  rw [scatter_dot]
  have : ∀ e ∈ range S.ne, ∑ k ∈ range S.E.ndof, ∑ i : Fin d.n,
      evalKernel S.E S.E d.n d.n false false (S.pointFn acc) S.elements (gatherE S.E.ndof S.conn u) (fun _ => 0) (e * (d.n * S.E.ndof) + (i * S.E.ndof + k)) *
        v (S.conn e k) i = (S.elements.zipIdx.map fun ee => if ee.1 = e then ∑ Q ∈ range S.E.npts, s.wt Q *
      ((∑ i, (pt S s u acc ee Q).1 i * value S s v ee.1 Q i) + ∑ i, ∑ l, (pt S s u acc ee Q).2 i l * parGrad S s v ee.1 Q i l) else 0).sum := by
    intro e _
    have : ∀ k ∈ range S.E.ndof, ∑ i : Fin d.n,
        evalKernel S.E S.E d.n d.n false false (S.pointFn acc) S.elements (gatherE S.E.ndof S.conn u) (fun _ => 0)
          (e * (d.n * S.E.ndof) + (i * S.E.ndof + k)) * v (S.conn e k) i =
        (S.elements.zipIdx.map fun ee => if ee.1 = e then ∑ i : Fin d.n, (∑ Q ∈ range S.E.npts, s.wt Q *
          ((pt S s u acc ee Q).1 i * s.phi Q k + ∑ l : Fin d.n, (pt S s u acc ee Q).2 i l * s.dphi Q k l)) * v (S.conn e k) i else 0).sum := by
      intro k hk
      simp only [element_vector hm hn u acc e (mem_range.1 hk)]
      generalize S.elements.zipIdx = L
      induction L with
      | nil => simp
      | cons a l ih =>
        simp only [List.map_cons, List.sum_cons, add_mul, sum_add_distrib, ih]
        congr 1
        split_ifs <;> simp
    rw [sum_congr rfl this, list_sum_comm]
    congr 1
    refine List.map_congr_left fun ee _ => ?_
    split_ifs with he
    · simp only [sum_mul]
      rw [sum_congr rfl fun k _ => sum_comm, sum_comm]
      refine sum_congr rfl fun Q _ => ?_
      simp only [value, parGrad, mul_sum, mul_add, add_mul, sum_add_distrib]
      rw [he]
      congr 1
      · rw [sum_comm]
        exact sum_congr rfl fun i _ => sum_congr rfl fun k _ => by ring
      · rw [sum_comm]
        refine sum_congr rfl fun i _ => ?_
        simp only [sum_mul]
        rw [sum_comm]
        exact sum_congr rfl fun l _ => sum_congr rfl fun k _ => by ring
    · simp
  rw [sum_congr rfl this, list_sum_comm]
  congr 1
  refine List.map_congr_left fun ee hee => ?_
  rw [sum_ite_eq, if_pos (mem_range.2 (hm.mem _ (mem_zipIdx_fst hee)))]

/-! ## Theorems -/

/-- **C71, virtual work.**  The residual tested with any nodal field is the work of inertia and stress on it. -/
theorem C71_virtual_work (hm : Meaning S s) (hn : Nondegenerate S s) (u acc v : S.Nodal) (P : ℕ × ℕ → ℕ → M d.n) (hP : Stress S s u P) :
    ∑ n, ∑ i, S.residual u acc n i * v n i = integral S s fun ee Q =>
      (∑ i, S.density * value S s acc ee.1 Q i * value S s v ee.1 Q i) + ∑ i, ∑ j, P ee Q i j * grad S s v ee.1 Q i j := by
  rw [tested hm hn]
  unfold integral
  congr 1
  refine List.map_congr_left fun ee hee => sum_congr rfl fun Q hQ => ?_
  congr 1
  have hJ := hn ee.1 (mem_zipIdx_fst hee) Q (mem_range.1 hQ)
  unfold pt
  rw [hP ee hee Q (mem_range.1 hQ), Option.map_some, Option.getD_some, mul_add]
  dsimp only
  congr 1
  · rw [mul_sum]
    exact sum_congr rfl fun i _ => by ring
  · have h1 : parGrad S s v ee.1 Q = grad S s v ee.1 Q * jac S s ee.1 Q := by
      unfold grad
      rw [Matrix.mul_assoc, Matrix.nonsing_inv_mul _ hJ.isUnit, Matrix.mul_one]
    rw [h1, ← contract_H1 (P ee Q) (grad S s v ee.1 Q) (jac S s ee.1 Q) hJ, mul_sum]
    refine sum_congr rfl fun i _ => ?_
    rw [mul_sum]
    exact sum_congr rfl fun j _ => by rw [Matrix.smul_apply, smul_eq_mul, mul_assoc]

/-! ### Linearity of evaluation -/

theorem value_single (n : Fin S.nn) (i : Fin d.n) (e Q : ℕ) (i' : Fin d.n) :
    value S s (fun m j => if m = n ∧ j = i then 1 else 0) e Q i' = if i' = i then ∑ a ∈ range S.E.ndof, if S.conn e a = n then s.phi Q a else 0 else 0 := by
  unfold value
  by_cases h : i' = i <;> simp [h]

theorem parGrad_single (n : Fin S.nn) (i : Fin d.n) (e Q : ℕ) (i' k : Fin d.n) :
    parGrad S s (fun m j => if m = n ∧ j = i then 1 else 0) e Q i' k = if i' = i then ∑ a ∈ range S.E.ndof, if S.conn e a = n then s.dphi Q a k else 0 else 0 := by
  unfold parGrad
  by_cases h : i' = i <;> simp [h]

theorem single_dot {nn c : ℕ} (r : Fin nn → Vec ℝ c) (n : Fin nn) (i : Fin c) : ∑ m, ∑ j, r m j * (if m = n ∧ j = i then (1 : ℝ) else 0) = r n i := by
  rw [sum_eq_single n, sum_eq_single i]
  · simp
  · intro j _ h; simp [h]
  · simp
  · intro m _ h; simp [h]
  · simp

theorem ext_tested {nn c : ℕ} {r r' : Fin nn → Vec ℝ c} (h : ∀ v : Fin nn → Vec ℝ c, ∑ n, ∑ i, r n i * v n i = ∑ n, ∑ i, r' n i * v n i) : r = r' := by
  funext n i
  rw [← single_dot r n i, ← single_dot r' n i]
  exact h _

variable (S s)

/-- The function of node `n` at a point, and its gradient. -/
def shape (n : Fin S.nn) (e Q : ℕ) : ℝ := ∑ a ∈ range S.E.ndof, if S.conn e a = n then s.phi Q a else 0
def shapeGrad (n : Fin S.nn) (e Q : ℕ) (j : Fin d.n) : ℝ :=
  ∑ a ∈ range S.E.ndof, if S.conn e a = n then ∑ l : Fin d.n, s.dphi Q a l * (jac S s e Q)⁻¹ l j else 0

/-- The shape functions sum to one, at every point. -/
def Unity : Prop := ∀ Q < S.E.npts, ∑ a ∈ range S.E.ndof, s.phi Q a = 1 ∧ ∀ k : Fin d.n, ∑ a ∈ range S.E.ndof, s.dphi Q a k = 0

/-- `X` are the reference positions as a nodal field: its derivative on the parent element is the Jacobian. -/
def Positions (X : S.Nodal) : Prop := ∀ e ∈ S.elements, ∀ Q < S.E.npts, parGrad S s X e Q = jac S s e Q

/-- The stress the materials return is symmetric. -/
def Symmetric : Prop := ∀ p H σ, S.material p H = some σ → σᵀ = σ

variable {S s}

/-- **C71, nodal forces.** -/
theorem C71_nodal (hm : Meaning S s) (hn : Nondegenerate S s) (u acc : S.Nodal) (P : ℕ × ℕ → ℕ → M d.n) (hP : Stress S s u P) (n : Fin S.nn) (i : Fin d.n) :
    S.residual u acc n i = integral S s fun ee Q =>
      S.density * value S s acc ee.1 Q i * shape S s n ee.1 Q + ∑ j, P ee Q i j * shapeGrad S s n ee.1 Q j := by
  rw [← single_dot (S.residual u acc) n i, C71_virtual_work hm hn u acc _ P hP]
  unfold integral
  congr 1
  refine List.map_congr_left fun ee _ => sum_congr rfl fun Q _ => ?_
  congr 2
  refine congrArg₂ (· + ·) ?_ ?_
  · simp only [value_single]
    rw [sum_eq_single i]
    · simp [shape]
    · intro j _ h; simp [h]
    · simp
  · rw [sum_eq_single i]
    · refine sum_congr rfl fun j _ => ?_
      congr 1
      unfold grad shapeGrad
      simp only [Matrix.mul_apply, parGrad_single, if_true, sum_mul]
      rw [sum_comm]
      refine sum_congr rfl fun a _ => ?_
      split_ifs <;> simp
    · intro i' _ h
      refine sum_eq_zero fun j _ => ?_
      unfold grad
      simp [Matrix.mul_apply, parGrad_single, h]
    · simp

theorem integral_congr {f g : ℕ × ℕ → ℕ → ℝ} (h : ∀ ee ∈ S.elements.zipIdx, ∀ Q < S.E.npts, f ee Q = g ee Q) : integral S s f = integral S s g := by
  unfold integral
  congr 1
  exact List.map_congr_left fun ee hee => sum_congr rfl fun Q hQ => by rw [h ee hee Q (mem_range.1 hQ)]

theorem integral_zero : integral S s (fun _ _ => 0) = 0 := by
  unfold integral
  simp

theorem value_const (hu : Unity S s) (c : Fin d.n → ℝ) (e : ℕ) {Q : ℕ} (hQ : Q < S.E.npts) : value S s (fun _ => c) e Q = c := by
  funext i
  unfold value
  rw [← mul_sum, (hu Q hQ).1, mul_one]

theorem parGrad_const (hu : Unity S s) (c : Fin d.n → ℝ) (e : ℕ) {Q : ℕ} (hQ : Q < S.E.npts) : parGrad S s (fun _ => c) e Q = 0 := by
  funext i k
  unfold parGrad
  rw [← mul_sum, (hu Q hQ).2 k, mul_zero]
  rfl

theorem parGrad_add (v w : S.Nodal) (e Q : ℕ) : parGrad S s (fun n i => v n i + w n i) e Q = parGrad S s v e Q + parGrad S s w e Q := by
  funext i k
  simp only [parGrad, Matrix.add_apply, add_mul, sum_add_distrib]

theorem parGrad_sub (v w : S.Nodal) (e Q : ℕ) : parGrad S s (fun n i => v n i - w n i) e Q = parGrad S s v e Q - parGrad S s w e Q := by
  funext i k
  simp only [parGrad, Matrix.sub_apply, sub_mul, sum_sub_distrib]

theorem value_add (v w : S.Nodal) (e Q : ℕ) (i : Fin d.n) : value S s (fun n i => v n i + w n i) e Q i = value S s v e Q i + value S s w e Q i := by
  simp only [value, add_mul, sum_add_distrib]

theorem parGrad_mul (A : M d.n) (v : S.Nodal) (e Q : ℕ) : parGrad S s (fun n => A *ᵥ v n) e Q = A * parGrad S s v e Q := by
  funext i k
  simp only [parGrad, Matrix.mul_apply, Matrix.mulVec, dotProduct, sum_mul, mul_sum]
  rw [sum_comm]
  exact sum_congr rfl fun j _ => sum_congr rfl fun a _ => by ring

theorem value_mul (A : M d.n) (v : S.Nodal) (e Q : ℕ) : value S s (fun n => A *ᵥ v n) e Q = A *ᵥ value S s v e Q := by
  funext i
  simp only [value, Matrix.mulVec, dotProduct, sum_mul, mul_sum]
  rw [sum_comm]
  exact sum_congr rfl fun j _ => sum_congr rfl fun a _ => by ring

theorem grad_position (hn : Nondegenerate S s) {X : S.Nodal} (hX : Positions S s X) {e Q : ℕ} (he : e ∈ S.elements) (hQ : Q < S.E.npts) :
    grad S s X e Q = 1 := by
  unfold grad
  rw [hX e he Q hQ, Matrix.mul_nonsing_inv _ (hn e he Q hQ).isUnit]

/-- **C71, balance of forces**: for every material, displacement and acceleration the nodal forces sum to the rate of momentum; without inertia to zero. -/
theorem C71_force (hm : Meaning S s) (hn : Nondegenerate S s) (hu : Unity S s) (u acc : S.Nodal) (P : ℕ × ℕ → ℕ → M d.n) (hP : Stress S s u P) (i : Fin d.n) :
    ∑ n, S.residual u acc n i = integral S s (fun ee Q => S.density * value S s acc ee.1 Q i) ∧ ∑ n, S.residual u (fun _ _ => 0) n i = 0 := by
  have key : ∀ acc : S.Nodal, ∑ n, S.residual u acc n i = integral S s (fun ee Q => S.density * value S s acc ee.1 Q i) := by
    intro acc
    have h := C71_virtual_work hm hn u acc (fun _ j => if j = i then 1 else 0) P hP
    have h0 : ∀ n, ∑ j, S.residual u acc n j * (if j = i then (1 : ℝ) else 0) = S.residual u acc n i := fun n => by simp
    simp only [h0] at h
    rw [h]
    refine integral_congr fun ee _ Q hQ => ?_
    have h1 := value_const hu (fun j : Fin d.n => if j = i then 1 else 0) ee.1 hQ
    have h2 := parGrad_const hu (fun j : Fin d.n => if j = i then 1 else 0) ee.1 hQ
    rw [h1]
    unfold grad
    rw [h2]
    simp
  refine ⟨key acc, ?_⟩
  rw [key]
  exact (integral_congr fun ee _ Q _ => by simp [value]).trans integral_zero

/-- The field of an infinitesimal rotation in the plane of `i` and `j` about the origin, at the places `x`. -/
def spin (x : S.Nodal) (i j : Fin d.n) : S.Nodal := fun n k => (if k = j then x n i else 0) - if k = i then x n j else 0

theorem value_spin (x : S.Nodal) (i j : Fin d.n) (e Q : ℕ) (k : Fin d.n) :
    value S s (spin x i j) e Q k = (if k = j then value S s x e Q i else 0) - if k = i then value S s x e Q j else 0 := by
  unfold value spin
  split_ifs <;> simp [sub_mul, sum_sub_distrib]

theorem grad_spin (x : S.Nodal) (i j : Fin d.n) (e Q : ℕ) (k l : Fin d.n) :
    grad S s (spin x i j) e Q k l = (if k = j then grad S s x e Q i l else 0) - if k = i then grad S s x e Q j l else 0 := by
  have h : ∀ k m, parGrad S s (spin x i j) e Q k m = (if k = j then parGrad S s x e Q i m else 0) - if k = i then parGrad S s x e Q j m else 0 := by
    intro k m
    unfold parGrad spin
    split_ifs <;> simp [sub_mul, sum_sub_distrib]
  unfold grad
  simp only [Matrix.mul_apply, h, sub_mul, sum_sub_distrib]
  split_ifs <;> simp

theorem spin_dot (x : S.Nodal) (i j : Fin d.n) (r : S.Nodal) : ∑ n, ∑ k, r n k * spin x i j n k = ∑ n, (x n i * r n j - x n j * r n i) := by
  refine sum_congr rfl fun n _ => ?_
  simp only [spin, mul_sub, sum_sub_distrib, mul_ite, mul_zero, sum_ite_eq', mem_univ, if_true]
  ring

theorem moment_of (hm : Meaning S s) (hn : Nondegenerate S s) (u acc x : S.Nodal) (P : ℕ × ℕ → ℕ → M d.n) (hP : Stress S s u P) (i j : Fin d.n)
    (h : ∀ ee ∈ S.elements.zipIdx, ∀ Q < S.E.npts, P ee Q * (grad S s x ee.1 Q)ᵀ = grad S s x ee.1 Q * (P ee Q)ᵀ) :
    ∑ n, (x n i * S.residual u acc n j - x n j * S.residual u acc n i) = integral S s fun ee Q =>
      S.density * (value S s x ee.1 Q i * value S s acc ee.1 Q j - value S s x ee.1 Q j * value S s acc ee.1 Q i) := by
  rw [← spin_dot, C71_virtual_work hm hn u acc _ P hP]
  refine integral_congr fun ee hee Q hQ => ?_
  have h1 : ∑ k, ∑ l, P ee Q k l * grad S s (spin x i j) ee.1 Q k l = (P ee Q * (grad S s x ee.1 Q)ᵀ) j i - (P ee Q * (grad S s x ee.1 Q)ᵀ) i j := by
    simp only [grad_spin, mul_sub, sum_sub_distrib, mul_ite, mul_zero, Matrix.mul_apply, Matrix.transpose_apply]
    congr 1
    · rw [sum_comm]
      exact sum_congr rfl fun l _ => by simp
    · rw [sum_comm]
      exact sum_congr rfl fun l _ => by simp
  have h2 : (P ee Q * (grad S s x ee.1 Q)ᵀ) j i = (P ee Q * (grad S s x ee.1 Q)ᵀ) i j := by
    conv_lhs => rw [h ee hee Q hQ]
    simp only [Matrix.mul_apply, Matrix.transpose_apply]
    exact sum_congr rfl fun l _ => mul_comm _ _
  rw [h1, h2, sub_self, add_zero]
  simp only [value_spin, mul_sub, sum_sub_distrib, mul_ite, mul_zero, sum_ite_eq', mem_univ, if_true]
  ring

/-- **C71, balance of moments**, geometric nonlinearity on: with symmetric stresses the moments of the nodal forces about the current places of the nodes sum to
the rate of angular momentum. -/
theorem C71_moment (hm : Meaning S s) (hn : Nondegenerate S s) (X : S.Nodal) (hX : Positions S s X) (hs : Symmetric S) (hon : S.on = true) (u acc : S.Nodal)
    (P : ℕ × ℕ → ℕ → M d.n) (hP : Stress S s u P) (i j : Fin d.n) :
    let x : S.Nodal := fun n k => X n k + u n k
    ∑ n, (x n i * S.residual u acc n j - x n j * S.residual u acc n i) = integral S s fun ee Q =>
      S.density * (value S s x ee.1 Q i * value S s acc ee.1 Q j - value S s x ee.1 Q j * value S s acc ee.1 Q i) := by
  intro x
  refine moment_of hm hn u acc x P hP i j fun ee hee Q hQ => ?_
  have he := mem_zipIdx_fst hee
  have h1 : grad S s x ee.1 Q = 1 + grad S s u ee.1 Q := by
    rw [← grad_position hn hX he hQ]
    unfold grad
    rw [parGrad_add, Matrix.add_mul]
  rw [h1]
  have h2 := hP ee hee Q hQ
  rw [hon] at h2
  unfold materialFlux at h2
  obtain ⟨σ, h3, h4⟩ := Option.bind_eq_some_iff.1 h2
  exact C33.C33_angular (ops_exact d) σ _ _ (hs _ _ _ h3) h4

/-- **C71, balance of moments**, geometric nonlinearity off: about the reference places of the nodes. -/
theorem C71_moment_off (hm : Meaning S s) (hn : Nondegenerate S s) (X : S.Nodal) (hX : Positions S s X) (hs : Symmetric S) (hon : S.on = false) (u acc : S.Nodal)
    (P : ℕ × ℕ → ℕ → M d.n) (hP : Stress S s u P) (i j : Fin d.n) :
    ∑ n, (X n i * S.residual u acc n j - X n j * S.residual u acc n i) = integral S s fun ee Q =>
      S.density * (value S s X ee.1 Q i * value S s acc ee.1 Q j - value S s X ee.1 Q j * value S s acc ee.1 Q i) := by
  refine moment_of hm hn u acc _ P hP i j fun ee hee Q hQ => ?_
  rw [grad_position hn hX (mem_zipIdx_fst hee) hQ]
  have h2 := hP ee hee Q hQ
  rw [hon] at h2
  unfold materialFlux at h2
  obtain ⟨σ, h3, h4⟩ := Option.bind_eq_some_iff.1 h2
  rw [C33.C33_flux_off (ops_exact d)] at h4
  obtain rfl := Option.some.inj h4
  rw [Matrix.transpose_one, Matrix.mul_one, Matrix.one_mul, hs _ _ _ h3]

/-! ### Rigid motions -/

/-- The displacement after the deformed body `X + u` was rotated and moved. -/
def moved (R : M d.n) (c : Fin d.n → ℝ) (X u : S.Nodal) : S.Nodal := fun n i => ((R *ᵥ fun k => X n k + u n k) i + c i) - X n i

theorem grad_moved (hn : Nondegenerate S s) (hu : Unity S s) {X : S.Nodal} (hX : Positions S s X) (R : M d.n) (c : Fin d.n → ℝ) (u : S.Nodal) {e Q : ℕ}
    (he : e ∈ S.elements) (hQ : Q < S.E.npts) : grad S s (moved R c X u) e Q = R * (1 + grad S s u e Q) - 1 := by
  have h1 : parGrad S s (moved R c X u) e Q = R * (parGrad S s X e Q + parGrad S s u e Q) + 0 - parGrad S s X e Q := by
    rw [← parGrad_const hu c e hQ, ← parGrad_add, ← parGrad_mul, ← parGrad_add, ← parGrad_sub]
    rfl
  unfold grad
  rw [h1, add_zero, hX e he Q hQ, Matrix.sub_mul, Matrix.mul_assoc, Matrix.add_mul, Matrix.mul_nonsing_inv _ (hn e he Q hQ).isUnit]

theorem rotate_dot {n : ℕ} (R : M n) (x y : Fin n → ℝ) : ∑ i, (R *ᵥ x) i * y i = ∑ i, x i * (Rᵀ *ᵥ y) i := by
  simp only [Matrix.mulVec, dotProduct, sum_mul, mul_sum, Matrix.transpose_apply]
  rw [sum_comm]
  exact sum_congr rfl fun i _ => sum_congr rfl fun j _ => by ring

theorem rotate_dotM {n : ℕ} (R A B : M n) : ∑ i, ∑ j, (R * A) i j * B i j = ∑ i, ∑ j, A i j * (Rᵀ * B) i j := by
  have h : ∀ A B : M n, ∑ i, ∑ j, A i j * B i j = ∑ j, ∑ i, A i j * B i j := fun A B => sum_comm
  rw [h, h]
  refine sum_congr rfl fun j _ => ?_
  have := rotate_dot R (fun i => A i j) fun i => B i j
  simpa [Matrix.mulVec, dotProduct, Matrix.mul_apply] using this

/-- **C71, observers.**  With geometric nonlinearity on and frame indifferent materials, rotating and moving the deformed body (and rotating the accelerations)
rotates all nodal forces.  No condition on the deformation. -/
theorem C71_frame (hm : Meaning S s) (hn : Nondegenerate S s) (hu : Unity S s) (X : S.Nodal) (hX : Positions S s X)
    (hf : ∀ p, C31.FrameIndifferent (S.material p)) (hon : S.on = true) (R : M d.n) (hR : C31.IsRotation R) (c : Fin d.n → ℝ) (u acc : S.Nodal)
    (n : Fin S.nn) : S.residual (moved R c X u) (fun n => R *ᵥ acc n) n = R *ᵥ S.residual u acc n := by
  refine congrFun (ext_tested (r := S.residual (moved R c X u) (fun n => R *ᵥ acc n)) (r' := fun n => R *ᵥ S.residual u acc n) fun v => ?_) n
  have h1 : ∑ n, ∑ i, (R *ᵥ S.residual u acc n) i * v n i = ∑ n, ∑ i, S.residual u acc n i * (fun n => Rᵀ *ᵥ v n : S.Nodal) n i :=
    sum_congr rfl fun n _ => rotate_dot R _ _
  rw [h1, tested hm hn, tested hm hn]
  congr 1
  refine List.map_congr_left fun ee hee => sum_congr rfl fun Q hQ => ?_
  have hQ := mem_range.1 hQ
  have he := mem_zipIdx_fst hee
  congr 1
  have hp : pt S s (moved R c X u) (fun n => R *ᵥ acc n) ee Q = (R *ᵥ (pt S s u acc ee Q).1, R * (pt S s u acc ee Q).2) := by
    unfold pt
    rw [grad_moved hn hu hX R c u he hQ, hon, C33.C33_frame (ops_exact d) (hf _) R _ hR]
    cases materialFlux (ops d) true (S.material (ee.2 * S.E.npts + Q)) (grad S s u ee.1 Q) with
    | none => simp
    | some P =>
      simp only [Option.map_some, Option.getD_some]
      rw [value_mul]
      refine Prod.ext ?_ ?_
      · funext i
        simp only [Matrix.mulVec, dotProduct, mul_sum]
        exact sum_congr rfl fun j _ => by ring
      · dsimp only
        rw [Matrix.mul_smul, Matrix.mul_assoc]
  rw [hp, parGrad_mul, value_mul, rotate_dot, rotate_dotM]

/-- **C71, rigid motions** of stress-free bodies give no forces: any rotation and translation, if the material is frame indifferent and the switch is on. -/
theorem C71_rigid (hm : Meaning S s) (hn : Nondegenerate S s) (hu : Unity S s) (X : S.Nodal) (hX : Positions S s X)
    (hf : ∀ p, C31.FrameIndifferent (S.material p)) (h0 : ∀ p, C31.StressFree (S.material p)) (hon : S.on = true) (R : M d.n) (hR : C31.IsRotation R)
    (c : Fin d.n → ℝ) (n : Fin S.nn) (i : Fin d.n) : S.residual (moved R c X fun _ _ => 0) (fun _ _ => 0) n i = 0 := by
  have h1 := C71_frame hm hn hu X hX hf hon R hR c (fun _ _ => 0) (fun _ _ => 0) n
  have h2 : (fun _ => R *ᵥ fun _ => 0 : S.Nodal) = fun _ _ => 0 := by
    funext n
    exact Matrix.mulVec_zero R
  have h3 : S.residual (fun _ _ => 0) (fun _ _ => 0) n = 0 := by
    funext i
    have hP : Stress S s (fun _ _ => 0) (fun _ _ => 0) := by
      intro ee _ Q hQ
      have : grad S s (fun _ _ => 0) ee.1 Q = 0 := by
        unfold grad
        rw [parGrad_const hu (fun _ => 0) ee.1 hQ, Matrix.zero_mul]
      rw [this, hon]
      unfold materialFlux
      rw [h0, Option.bind_some, C33.flux_eq (ops_exact d), if_pos rfl]
      simp
    rw [C71_nodal hm hn _ _ _ hP, Pi.zero_apply]
    exact (integral_congr fun ee _ Q _ => by simp [value]).trans integral_zero
  rw [h2, h3, Matrix.mulVec_zero] at h1
  exact congrFun h1 i

/-! ### Energy -/

/-- The flux is the derivative of the stored energy `W`. -/
def Hyperelastic (on : Bool) (material : M d.n → Option (M d.n)) (W : M d.n → ℝ) : Prop :=
  ∀ (H : ℝ → M d.n) (H' P : M d.n), (∀ i j, HasDerivAt (fun t => H t i j) (H' i j) 0) → materialFlux (ops d) on material (H 0) = some P →
    HasDerivAt (fun t => W (H t)) (∑ i, ∑ j, P i j * H' i j) 0

/-- **C71, energy.**  The nodal forces are the derivatives of the total stored energy: along every straight line in the space of displacements. -/
theorem C71_energy (hm : Meaning S s) (hn : Nondegenerate S s) (W : M d.n → ℝ) (hW : ∀ p, Hyperelastic S.on (S.material p) W) (u v : S.Nodal)
    (P : ℕ × ℕ → ℕ → M d.n) (hP : Stress S s u P) :
    HasDerivAt (fun t : ℝ => integral S s fun ee Q => W (grad S s (fun n i => u n i + t * v n i) ee.1 Q))
      (∑ n, ∑ i, S.residual u (fun _ _ => 0) n i * v n i) 0 := by
  have hg : ∀ t ee Q, grad S s (fun n i => u n i + t * v n i) ee Q = grad S s u ee Q + t • grad S s v ee Q := by
    intro t ee Q
    have : parGrad S s (fun n i => u n i + t * v n i) ee Q = parGrad S s u ee Q + t • parGrad S s v ee Q := by
      funext i k
      simp only [parGrad, Matrix.add_apply, Matrix.smul_apply, smul_eq_mul, mul_sum, add_mul, sum_add_distrib, mul_assoc]
    unfold grad
    rw [this, Matrix.add_mul, Matrix.smul_mul]
  simp only [hg]
  rw [C71_virtual_work hm hn u _ v P hP]
  have hz : ∀ ee Q, (∑ i, S.density * value S s (fun _ _ => 0) ee Q i * value S s v ee Q i) = 0 := fun ee Q => by simp [value]
  simp only [hz, zero_add]
  have key : ∀ ee ∈ S.elements.zipIdx, ∀ Q < S.E.npts, HasDerivAt (fun t : ℝ => W (grad S s u ee.1 Q + t • grad S s v ee.1 Q))
      (∑ i, ∑ j, P ee Q i j * grad S s v ee.1 Q i j) 0 := by
    intro ee hee Q hQ
    refine hW (ee.2 * S.E.npts + Q) (fun t => grad S s u ee.1 Q + t • grad S s v ee.1 Q) _ _ (fun i j => ?_) ?_
    · have := ((hasDerivAt_id (0 : ℝ)).mul_const (grad S s v ee.1 Q i j)).const_add (grad S s u ee.1 Q i j)
      simpa using this
    · rw [zero_smul, add_zero]
      exact hP ee hee Q hQ
  unfold integral
  generalize S.elements.zipIdx = L at key
  induction L with
  | nil => simpa using hasDerivAt_const (0 : ℝ) (0 : ℝ)
  | cons ee l ih =>
    simp only [List.map_cons, List.sum_cons]
    refine HasDerivAt.add ?_ (ih fun x hx => key x (List.mem_cons_of_mem _ hx))
    refine HasDerivAt.fun_sum fun Q hQ => ?_
    exact ((key ee List.mem_cons_self Q (mem_range.1 hQ)).const_mul _).const_mul _

/-- The neo-Hookean and the Saint Venant-Kirchhoff material are hyperelastic. -/
theorem C71_hyperelastic (K G : ℝ) :
    Hyperelastic (d := .two) true (nh2 K G) (C33.energyNH K G) ∧ Hyperelastic (d := .two) true (svk2 K G) (C33.energySVK K G) ∧
    Hyperelastic (d := .three) true (nh3 K G) (C33.energyNH K G) ∧ Hyperelastic (d := .three) true (svk3 K G) (C33.energySVK K G) :=
  ⟨fun H H' P h => ((C33.C33_energy K G).1 H H' P h).1, fun H H' P h => ((C33.C33_energy K G).1 H H' P h).2,
    fun H H' P h => ((C33.C33_energy K G).2 H H' P h).1, fun H H' P h => ((C33.C33_energy K G).2 H H' P h).2⟩

/-! ### Uniform deformation -/

/-- **C71, uniform deformation**: for a displacement `A X + c` and the same material everywhere the force on a node is the one stress times the integral of the
gradient of the node's function. -/
theorem C71_uniform (hm : Meaning S s) (hn : Nondegenerate S s) (hu : Unity S s) (X : S.Nodal) (hX : Positions S s X) (A : M d.n) (c : Fin d.n → ℝ)
    (σ : M d.n → Option (M d.n)) (hσ : ∀ p, S.material p = σ) (P : M d.n) (hP : materialFlux (ops d) S.on σ A = some P) (n : Fin S.nn) (i : Fin d.n) :
    S.residual (fun n i => (A *ᵥ X n) i + c i) (fun _ _ => 0) n i = ∑ j, P i j * integral S s fun ee Q => shapeGrad S s n ee.1 Q j := by
  have hst : Stress S s (fun n i => (A *ᵥ X n) i + c i) fun _ _ => P := by
    intro ee hee Q hQ
    have : grad S s (fun n i => (A *ᵥ X n) i + c i) ee.1 Q = A := by
      unfold grad
      rw [parGrad_add, parGrad_const hu c ee.1 hQ, parGrad_mul, add_zero, Matrix.mul_assoc]
      have := grad_position hn hX (mem_zipIdx_fst hee) hQ
      unfold grad at this
      rw [this, Matrix.mul_one]
    rw [this, hσ, hP]
  rw [C71_nodal hm hn _ _ _ hst]
  have hv : ∀ ee Q, value S s (fun _ _ => 0) ee Q i = 0 := fun ee Q => by simp [value]
  simp only [hv, mul_zero, zero_mul, zero_add]
  unfold integral
  generalize S.elements.zipIdx = L
  induction L with
  | nil => simp
  | cons ee l ih =>
    simp only [List.map_cons, List.sum_cons, mul_add, sum_add_distrib, ih]
    congr 1
    simp only [mul_sum]
    rw [sum_comm]
    exact sum_congr rfl fun j _ => sum_congr rfl fun Q _ => by ring

/-! ### The patch test -/

theorem det_inv (J : M d.n) (h : J.det ≠ 0) (l j : Fin d.n) : J.det * J⁻¹ l j = J.adjugate l j := by
  rw [Matrix.inv_def, Matrix.smul_apply, smul_eq_mul, ← mul_assoc, Ring.mul_inverse_cancel _ h.isUnit, one_mul]

/-- Volume times the gradient of a node's function. -/
theorem det_shapeGrad (n : Fin S.nn) (e Q : ℕ) (h : (jac S s e Q).det ≠ 0) (j : Fin d.n) : (jac S s e Q).det * shapeGrad S s n e Q j =
    ∑ a ∈ range S.E.ndof, if S.conn e a = n then ∑ l : Fin d.n, s.dphi Q a l * (jac S s e Q).adjugate l j else 0 := by
  unfold shapeGrad
  rw [mul_sum]
  refine sum_congr rfl fun a _ => ?_
  split_ifs
  · rw [mul_sum]
    exact sum_congr rfl fun l _ => by rw [← det_inv _ h]; ring
  · simp

/-- Linear triangles: the functions `1 - x - y`, `x`, `y` for displacement and position, a rule for the triangle of area one half, and `X` are the positions. -/
structure Triangles (S : Setup .two) (s : Shapes) (X : S.Nodal) : Prop where
  ndof : S.E.ndof = 3
  ndofG : S.G.ndof = 3
  dphi : ∀ Q < S.E.npts, ∀ (a : Fin 3) (k : Fin 2), s.dphi Q a k = Nodal.tri1Grad 0 0 0 a k
  dphiG : ∀ Q < S.E.npts, ∀ (a : Fin 3) (k : Fin 2), s.dphiG Q a k = Nodal.tri1Grad 0 0 0 a k
  wt : ∑ Q ∈ range S.E.npts, s.wt Q = 1 / 2
  pos : ∀ e ∈ S.elements, ∀ a < 3, X (S.conn e a) = S.pos (S.connG e a)

/-- The edge vector from `p` to `q` turned to the right: outward on a boundary with the body to the left. -/
def normal2 {nn : ℕ} (X : Fin nn → Fin 2 → ℝ) (p q : Fin nn) : Fin 2 → ℝ := ![X q 1 - X p 1, X p 0 - X q 0]

/-- The boundary of a mesh of triangles: each directed edge of an element is the reverse of one of another element or belongs to `bdr`.  Said with functions of
directed edges that change sign with the direction. -/
def Boundary2 (S : Setup .two) (bdr : List (Fin S.nn × Fin S.nn)) : Prop := ∀ w : Fin S.nn → Fin S.nn → ℝ, (∀ p q, w q p = -w p q) →
  (S.elements.map fun e => w (S.conn e 0) (S.conn e 1) + w (S.conn e 1) (S.conn e 2) + w (S.conn e 2) (S.conn e 0)).sum = (bdr.map fun b => w b.1 b.2).sum

theorem sum_zipIdx (l : List ℕ) (f : ℕ → ℝ) (m : ℕ) : ((l.zipIdx m).map fun ee => f ee.1).sum = (l.map f).sum := by
  induction l generalizing m with
  | nil => rfl
  | cons a l ih => simp only [List.zipIdx_cons, List.map_cons, List.sum_cons, ih]

theorem triangle_jac {S : Setup .two} {s : Shapes} {X : S.Nodal} (h : Triangles S s X) {e Q : ℕ} (he : e ∈ S.elements) (hQ : Q < S.E.npts) :
    jac S s e Q = !![X (S.conn e 1) 0 - X (S.conn e 0) 0, X (S.conn e 2) 0 - X (S.conn e 0) 0;
      X (S.conn e 1) 1 - X (S.conn e 0) 1, X (S.conn e 2) 1 - X (S.conn e 0) 1] := by
  have hg := h.dphiG Q hQ
  have hp := h.pos e he
  funext i k
  unfold jac
  rw [h.ndofG]
  simp only [sum_range_succ, sum_range_zero, zero_add]
  rw [show s.dphiG Q 0 k = _ from hg 0 k, show s.dphiG Q 1 k = _ from hg 1 k, show s.dphiG Q 2 k = _ from hg 2 k, ← hp 0 (by norm_num), ← hp 1 (by norm_num),
    ← hp 2 (by norm_num)]
  fin_cases i <;> fin_cases k <;> simp [Nodal.tri1Grad] <;> ring

theorem triangle_element {S : Setup .two} {s : Shapes} {X : S.Nodal} (h : Triangles S s X) (hn : Nondegenerate S s) (n : Fin S.nn) {e Q : ℕ}
    (he : e ∈ S.elements) (hQ : Q < S.E.npts) (j : Fin 2) :
    let w := fun p q => if p = n ∨ q = n then normal2 X p q j else 0
    (jac S s e Q).det * shapeGrad S s n e Q j = w (S.conn e 0) (S.conn e 1) + w (S.conn e 1) (S.conn e 2) + w (S.conn e 2) (S.conn e 0) := by
  intro w
  have hd := hn e he Q hQ
  have hg := h.dphi Q hQ
  rw [det_shapeGrad n e Q hd, h.ndof]
  rw [triangle_jac h he hQ] at hd ⊢
  rw [Matrix.adjugate_fin_two]
  simp only [sum_range_succ, sum_range_zero, zero_add, Fin.sum_univ_two]
  have g0 : ∀ k : Fin 2, s.dphi Q 0 k = _ := hg 0
  have g1 : ∀ k : Fin 2, s.dphi Q 1 k = _ := hg 1
  have g2 : ∀ k : Fin 2, s.dphi Q 2 k = _ := hg 2
  rw [g0, g0, g1, g1, g2, g2]
  dsimp only [Nodal.tri1Grad]
  rw [Matrix.det_fin_two] at hd
  generalize S.conn e 0 = c0 at *
  generalize S.conn e 1 = c1 at *
  generalize S.conn e 2 = c2 at *
  have n01 : c0 ≠ c1 := by rintro rfl; simp at hd
  have n02 : c0 ≠ c2 := by rintro rfl; simp at hd
  have n12 : c1 ≠ c2 := by
    rintro rfl
    apply hd
    simp
  dsimp only [w, normal2]
  by_cases h0 : c0 = n
  · subst h0
    fin_cases j <;> simp [n01.symm, n02.symm]
  by_cases h1 : c1 = n
  · subst h1
    fin_cases j <;> simp [n01, n12.symm]
  by_cases h2 : c2 = n
  · subst h2
    fin_cases j <;> simp [n02, n12]
  simp [h0, h1, h2]

/-- **C71, patch test for linear triangles**: under a uniform deformation of a uniform body there is no force on nodes inside, and on a node of the boundary half
of the traction times length of each of its boundary edges. -/
theorem C71_patch_triangles {S : Setup .two} {s : Shapes} {X : S.Nodal} (hm : Meaning S s) (hn : Nondegenerate S s) (hu : Unity S s) (ht : Triangles S s X)
    (bdr : List (Fin S.nn × Fin S.nn)) (hb : Boundary2 S bdr) (hX : Positions S s X) (A : M 2) (c : Fin 2 → ℝ)
    (σ : M 2 → Option (M 2)) (hσ : ∀ p, S.material p = σ) (P : M 2) (hP : materialFlux ops2 S.on σ A = some P) (n : Fin S.nn) (i : Fin 2) :
    S.residual (fun n i => (A *ᵥ X n) i + c i) (fun _ _ => 0) n i =
      (bdr.map fun b => if b.1 = n ∨ b.2 = n then 1 / 2 * (P *ᵥ normal2 X b.1 b.2) i else 0).sum := by
  rw [C71_uniform hm hn hu X hX A c σ hσ P hP n i]
  have key : ∀ j : Fin 2, integral S s (fun ee Q => shapeGrad S s n ee.1 Q j) =
      1 / 2 * (bdr.map fun b => if b.1 = n ∨ b.2 = n then normal2 X b.1 b.2 j else 0).sum := by
    intro j
    rw [← hb (fun p q => if p = n ∨ q = n then normal2 X p q j else 0) (fun p q => by
      by_cases hpq : p = n ∨ q = n
      · rw [if_pos hpq, if_pos hpq.symm]
        fin_cases j <;> simp [normal2]
      · rw [if_neg hpq, if_neg fun h => hpq h.symm, neg_zero])]
    unfold integral
    rw [← List.sum_map_mul_left, ← sum_zipIdx S.elements _ 0]
    congr 1
    refine List.map_congr_left fun ee hee => ?_
    rw [sum_congr rfl fun Q hQ => by rw [triangle_element ht hn n (mem_zipIdx_fst hee) (mem_range.1 hQ) j], ← sum_mul, ht.wt]
  change ∑ j : Fin 2, _ = _
  simp only [key, Fin.sum_univ_two, Matrix.mulVec, dotProduct]
  clear hb key
  induction bdr with
  | nil => simp
  | cons b l ih =>
    simp only [List.map_cons, List.sum_cons] at ih ⊢
    rw [← ih]
    split_ifs <;> ring

/-- Inside: the node is on no boundary edge. -/
theorem C71_patch_triangles_inside {S : Setup .two} {s : Shapes} {X : S.Nodal} (hm : Meaning S s) (hn : Nondegenerate S s) (hu : Unity S s)
    (ht : Triangles S s X) (bdr : List (Fin S.nn × Fin S.nn)) (hb : Boundary2 S bdr) (hX : Positions S s X) (A : M 2) (c : Fin 2 → ℝ)
    (σ : M 2 → Option (M 2)) (hσ : ∀ p, S.material p = σ) (P : M 2) (hP : materialFlux ops2 S.on σ A = some P) (n : Fin S.nn)
    (hin : ∀ b ∈ bdr, b.1 ≠ n ∧ b.2 ≠ n) (i : Fin 2) : S.residual (fun n i => (A *ᵥ X n) i + c i) (fun _ _ => 0) n i = 0 := by
  rw [C71_patch_triangles hm hn hu ht bdr hb hX A c σ hσ P hP n i]
  refine List.sum_eq_zero fun x hx => ?_
  obtain ⟨b, hb', rfl⟩ := List.mem_map.1 hx
  rw [if_neg fun h => h.elim (hin b hb').1 (hin b hb').2]

/-- Linear tetrahedra, likewise. -/
structure Tetrahedra (S : Setup .three) (s : Shapes) (X : S.Nodal) : Prop where
  ndof : S.E.ndof = 4
  ndofG : S.G.ndof = 4
  dphi : ∀ Q < S.E.npts, ∀ (a : Fin 4) (k : Fin 3), s.dphi Q a k = Nodal.tet1Grad 0 0 0 0 a k
  dphiG : ∀ Q < S.E.npts, ∀ (a : Fin 4) (k : Fin 3), s.dphiG Q a k = Nodal.tet1Grad 0 0 0 0 a k
  wt : ∑ Q ∈ range S.E.npts, s.wt Q = 1 / 6
  pos : ∀ e ∈ S.elements, ∀ a < 4, X (S.conn e a) = S.pos (S.connG e a)
  distinct : ∀ e ∈ S.elements, ∀ a < 4, ∀ b < 4, S.conn e a = S.conn e b → a = b

/-- Cross product of two edge vectors of a triangle: twice its area, outward if the corners are in counterclockwise order seen from outside. -/
def normal3 {nn : ℕ} (X : Fin nn → Fin 3 → ℝ) (p q r : Fin nn) : Fin 3 → ℝ := cross (fun k => X q k - X p k) fun k => X r k - X p k

/-- The boundary of a mesh of tetrahedra: faces of two elements cancel, the others are those of `bdr`. -/
def Boundary3 (S : Setup .three) (bdr : List (Fin S.nn × Fin S.nn × Fin S.nn)) : Prop := ∀ w : Fin S.nn → Fin S.nn → Fin S.nn → ℝ,
  (∀ p q r, w q p r = -w p q r) → (∀ p q r, w p r q = -w p q r) →
  (S.elements.map fun e => w (S.conn e 1) (S.conn e 2) (S.conn e 3) + w (S.conn e 0) (S.conn e 3) (S.conn e 2) +
    w (S.conn e 0) (S.conn e 1) (S.conn e 3) + w (S.conn e 0) (S.conn e 2) (S.conn e 1)).sum = (bdr.map fun b => w b.1 b.2.1 b.2.2).sum

theorem tet_jac {S : Setup .three} {s : Shapes} {X : S.Nodal} (h : Tetrahedra S s X) {e Q : ℕ} (he : e ∈ S.elements) (hQ : Q < S.E.npts) :
    jac S s e Q = (!![X (S.conn e 1) 0 - X (S.conn e 0) 0, X (S.conn e 2) 0 - X (S.conn e 0) 0, X (S.conn e 3) 0 - X (S.conn e 0) 0;
      X (S.conn e 1) 1 - X (S.conn e 0) 1, X (S.conn e 2) 1 - X (S.conn e 0) 1, X (S.conn e 3) 1 - X (S.conn e 0) 1;
      X (S.conn e 1) 2 - X (S.conn e 0) 2, X (S.conn e 2) 2 - X (S.conn e 0) 2, X (S.conn e 3) 2 - X (S.conn e 0) 2] : M 3) := by
  have hg := h.dphiG Q hQ
  have hp := h.pos e he
  funext i k
  unfold jac
  rw [h.ndofG]
  simp only [sum_range_succ, sum_range_zero, zero_add]
  rw [show s.dphiG Q 0 k = _ from hg 0 k, show s.dphiG Q 1 k = _ from hg 1 k, show s.dphiG Q 2 k = _ from hg 2 k, show s.dphiG Q 3 k = _ from hg 3 k,
    ← hp 0 (by norm_num), ← hp 1 (by norm_num), ← hp 2 (by norm_num), ← hp 3 (by norm_num)]
  revert i k
  change ∀ i k : Fin 3, _
  intro i k
  fin_cases i <;> fin_cases k <;> simp [Nodal.tet1Grad] <;> ring

theorem tet_element {S : Setup .three} {s : Shapes} {X : S.Nodal} (h : Tetrahedra S s X) (hn : Nondegenerate S s) (n : Fin S.nn) {e Q : ℕ}
    (he : e ∈ S.elements) (hQ : Q < S.E.npts) (j : Fin 3) :
    let w := fun p q r => if p = n ∨ q = n ∨ r = n then normal3 X p q r j else 0
    (jac S s e Q).det * shapeGrad S s n e Q j = w (S.conn e 1) (S.conn e 2) (S.conn e 3) + w (S.conn e 0) (S.conn e 3) (S.conn e 2) +
      w (S.conn e 0) (S.conn e 1) (S.conn e 3) + w (S.conn e 0) (S.conn e 2) (S.conn e 1) := by
  intro w
  have hd := hn e he Q hQ
  have hg := h.dphi Q hQ
  have hc := h.distinct e he
  rw [det_shapeGrad n e Q hd, h.ndof, tet_jac h he hQ, Matrix.adjugate_fin_three]
  simp only [sum_range_succ, sum_range_zero, zero_add, Fin.sum_univ_three]
  have g0 : ∀ k : Fin 3, s.dphi Q 0 k = _ := hg 0
  have g1 : ∀ k : Fin 3, s.dphi Q 1 k = _ := hg 1
  have g2 : ∀ k : Fin 3, s.dphi Q 2 k = _ := hg 2
  have g3 : ∀ k : Fin 3, s.dphi Q 3 k = _ := hg 3
  rw [g0, g0, g0, g1, g1, g1, g2, g2, g2, g3, g3, g3]
  dsimp only [Nodal.tet1Grad]
  have n01 : S.conn e 0 ≠ S.conn e 1 := fun h => by simpa using hc 0 (by norm_num) 1 (by norm_num) h
  have n02 : S.conn e 0 ≠ S.conn e 2 := fun h => by simpa using hc 0 (by norm_num) 2 (by norm_num) h
  have n03 : S.conn e 0 ≠ S.conn e 3 := fun h => by simpa using hc 0 (by norm_num) 3 (by norm_num) h
  have n12 : S.conn e 1 ≠ S.conn e 2 := fun h => by simpa using hc 1 (by norm_num) 2 (by norm_num) h
  have n13 : S.conn e 1 ≠ S.conn e 3 := fun h => by simpa using hc 1 (by norm_num) 3 (by norm_num) h
  have n23 : S.conn e 2 ≠ S.conn e 3 := fun h => by simpa using hc 2 (by norm_num) 3 (by norm_num) h
  generalize S.conn e 0 = c0 at *
  generalize S.conn e 1 = c1 at *
  generalize S.conn e 2 = c2 at *
  generalize S.conn e 3 = c3 at *
  dsimp only [w, normal3, cross]
  by_cases h0 : c0 = n
  · subst h0
    fin_cases j <;> simp [n01.symm, n02.symm, n03.symm] <;> ring
  by_cases h1 : c1 = n
  · subst h1
    fin_cases j <;> simp [n01, n12.symm, n13.symm] <;> ring
  by_cases h2 : c2 = n
  · subst h2
    fin_cases j <;> simp [n02, n12, n23.symm] <;> ring
  by_cases h3 : c3 = n
  · subst h3
    fin_cases j <;> simp [n03, n13, n23] <;> ring
  simp [h0, h1, h2, h3]

/-- **C71, patch test for linear tetrahedra**: a third of traction times area of each boundary face of the node (a sixth of the cross product). -/
theorem C71_patch_tetrahedra {S : Setup .three} {s : Shapes} {X : S.Nodal} (hm : Meaning S s) (hn : Nondegenerate S s) (hu : Unity S s) (ht : Tetrahedra S s X)
    (bdr : List (Fin S.nn × Fin S.nn × Fin S.nn)) (hb : Boundary3 S bdr) (hX : Positions S s X) (A : M 3) (c : Fin 3 → ℝ)
    (σ : M 3 → Option (M 3)) (hσ : ∀ p, S.material p = σ) (P : M 3) (hP : materialFlux ops3 S.on σ A = some P) (n : Fin S.nn) (i : Fin 3) :
    S.residual (fun n i => (A *ᵥ X n) i + c i) (fun _ _ => 0) n i =
      (bdr.map fun b => if b.1 = n ∨ b.2.1 = n ∨ b.2.2 = n then 1 / 6 * (P *ᵥ normal3 X b.1 b.2.1 b.2.2) i else 0).sum := by
  rw [C71_uniform hm hn hu X hX A c σ hσ P hP n i]
  have key : ∀ j : Fin 3, integral S s (fun ee Q => shapeGrad S s n ee.1 Q j) =
      1 / 6 * (bdr.map fun b => if b.1 = n ∨ b.2.1 = n ∨ b.2.2 = n then normal3 X b.1 b.2.1 b.2.2 j else 0).sum := by
    intro j
    rw [← hb (fun p q r => if p = n ∨ q = n ∨ r = n then normal3 X p q r j else 0) (fun p q r => by
      by_cases hpq : p = n ∨ q = n ∨ r = n
      · rw [if_pos hpq, if_pos (by tauto)]
        fin_cases j <;> simp [normal3, cross] <;> ring
      · rw [if_neg hpq, if_neg (by tauto), neg_zero]) (fun p q r => by
      by_cases hpq : p = n ∨ q = n ∨ r = n
      · rw [if_pos hpq, if_pos (by tauto)]
        fin_cases j <;> simp [normal3, cross] <;> ring
      · rw [if_neg hpq, if_neg (by tauto), neg_zero])]
    unfold integral
    rw [← List.sum_map_mul_left, ← sum_zipIdx S.elements _ 0]
    congr 1
    refine List.map_congr_left fun ee hee => ?_
    rw [sum_congr rfl fun Q hQ => by rw [tet_element ht hn n (mem_zipIdx_fst hee) (mem_range.1 hQ) j], ← sum_mul, ht.wt]
  change ∑ j : Fin 3, _ = _
  simp only [key, Fin.sum_univ_three, Matrix.mulVec, dotProduct]
  clear hb key
  induction bdr with
  | nil => simp
  | cons b l ih =>
    simp only [List.map_cons, List.sum_cons] at ih ⊢
    rw [← ih]
    split_ifs <;> ring

/-- Bilinear quadrilaterals, nodes in lexicographic order: `x`, `y` are the points; the rule integrates linear functions on the unit square exactly. -/
structure Quadrilaterals (S : Setup .two) (s : Shapes) (X : S.Nodal) (x y : ℕ → ℝ) : Prop where
  ndof : S.E.ndof = 4
  ndofG : S.G.ndof = 4
  dphi : ∀ Q < S.E.npts, ∀ (a : Fin 4) (k : Fin 2), s.dphi Q a k =
    ![![-(1 - y Q), -(1 - x Q)], ![1 - y Q, -x Q], ![-y Q, 1 - x Q], ![y Q, x Q]] a k
  dphiG : ∀ Q < S.E.npts, ∀ (a : Fin 4) (k : Fin 2), s.dphiG Q a k =
    ![![-(1 - y Q), -(1 - x Q)], ![1 - y Q, -x Q], ![-y Q, 1 - x Q], ![y Q, x Q]] a k
  wt : ∑ Q ∈ range S.E.npts, s.wt Q = 1
  wtx : ∑ Q ∈ range S.E.npts, s.wt Q * x Q = 1 / 2
  wty : ∑ Q ∈ range S.E.npts, s.wt Q * y Q = 1 / 2
  pos : ∀ e ∈ S.elements, ∀ a < 4, X (S.conn e a) = S.pos (S.connG e a)
  distinct : ∀ e ∈ S.elements, ∀ a < 4, ∀ b < 4, S.conn e a = S.conn e b → a = b

/-- The boundary of a mesh of quadrilaterals; the corners in order around are 0, 1, 3, 2. -/
def Boundary4 (S : Setup .two) (bdr : List (Fin S.nn × Fin S.nn)) : Prop := ∀ w : Fin S.nn → Fin S.nn → ℝ, (∀ p q, w q p = -w p q) →
  (S.elements.map fun e => w (S.conn e 0) (S.conn e 1) + w (S.conn e 1) (S.conn e 3) + w (S.conn e 3) (S.conn e 2) + w (S.conn e 2) (S.conn e 0)).sum =
    (bdr.map fun b => w b.1 b.2).sum

theorem quad_jac {S : Setup .two} {s : Shapes} {X : S.Nodal} {x y : ℕ → ℝ} (h : Quadrilaterals S s X x y) {e Q : ℕ} (he : e ∈ S.elements) (hQ : Q < S.E.npts) :
    jac S s e Q = (!![(1 - y Q) * (X (S.conn e 1) 0 - X (S.conn e 0) 0) + y Q * (X (S.conn e 3) 0 - X (S.conn e 2) 0),
        (1 - x Q) * (X (S.conn e 2) 0 - X (S.conn e 0) 0) + x Q * (X (S.conn e 3) 0 - X (S.conn e 1) 0);
      (1 - y Q) * (X (S.conn e 1) 1 - X (S.conn e 0) 1) + y Q * (X (S.conn e 3) 1 - X (S.conn e 2) 1),
        (1 - x Q) * (X (S.conn e 2) 1 - X (S.conn e 0) 1) + x Q * (X (S.conn e 3) 1 - X (S.conn e 1) 1)] : M 2) := by
  have hg := h.dphiG Q hQ
  have hp := h.pos e he
  funext i k
  unfold jac
  rw [h.ndofG]
  simp only [sum_range_succ, sum_range_zero, zero_add]
  rw [show s.dphiG Q 0 k = _ from hg 0 k, show s.dphiG Q 1 k = _ from hg 1 k, show s.dphiG Q 2 k = _ from hg 2 k, show s.dphiG Q 3 k = _ from hg 3 k,
    ← hp 0 (by norm_num), ← hp 1 (by norm_num), ← hp 2 (by norm_num), ← hp 3 (by norm_num)]
  fin_cases i <;> fin_cases k <;> simp <;> ring

theorem quad_element {S : Setup .two} {s : Shapes} {X : S.Nodal} {x y : ℕ → ℝ} (h : Quadrilaterals S s X x y) (hn : Nondegenerate S s) (n : Fin S.nn) {e : ℕ}
    (he : e ∈ S.elements) (j : Fin 2) :
    let w := fun p q => if p = n ∨ q = n then normal2 X p q j else 0
    ∑ Q ∈ range S.E.npts, s.wt Q * ((jac S s e Q).det * shapeGrad S s n e Q j) =
      1 / 2 * (w (S.conn e 0) (S.conn e 1) + w (S.conn e 1) (S.conn e 3) + w (S.conn e 3) (S.conn e 2) + w (S.conn e 2) (S.conn e 0)) := by
  intro w
  have hc := h.distinct e he
  have key : ∃ α β γ : ℝ, (∀ Q < S.E.npts, (jac S s e Q).det * shapeGrad S s n e Q j = α + β * x Q + γ * y Q) ∧ α + β * (1 / 2) + γ * (1 / 2) =
      1 / 2 * (w (S.conn e 0) (S.conn e 1) + w (S.conn e 1) (S.conn e 3) + w (S.conn e 3) (S.conn e 2) + w (S.conn e 2) (S.conn e 0)) := by
    have hq : ∀ Q < S.E.npts, (jac S s e Q).det * shapeGrad S s n e Q j =
        (if S.conn e 0 = n then -(1 - y Q) * (jac S s e Q).adjugate 0 j + -(1 - x Q) * (jac S s e Q).adjugate 1 j else 0) +
        (if S.conn e 1 = n then (1 - y Q) * (jac S s e Q).adjugate 0 j + -x Q * (jac S s e Q).adjugate 1 j else 0) +
        (if S.conn e 2 = n then -y Q * (jac S s e Q).adjugate 0 j + (1 - x Q) * (jac S s e Q).adjugate 1 j else 0) +
        (if S.conn e 3 = n then y Q * (jac S s e Q).adjugate 0 j + x Q * (jac S s e Q).adjugate 1 j else 0) := by
      intro Q hQ
      have hd := hn e he Q hQ
      have hg := h.dphi Q hQ
      rw [det_shapeGrad n e Q hd, h.ndof]
      simp only [sum_range_succ, sum_range_zero, zero_add, Fin.sum_univ_two]
      have g0 : ∀ k : Fin 2, s.dphi Q 0 k = _ := hg 0
      have g1 : ∀ k : Fin 2, s.dphi Q 1 k = _ := hg 1
      have g2 : ∀ k : Fin 2, s.dphi Q 2 k = _ := hg 2
      have g3 : ∀ k : Fin 2, s.dphi Q 3 k = _ := hg 3
      rw [g0, g0, g1, g1, g2, g2, g3, g3]
      rfl
    have hj : ∀ Q < S.E.npts, (jac S s e Q).adjugate = _ := fun Q hQ => by
      rw [quad_jac h he hQ, Matrix.adjugate_fin_two]
    have n01 : S.conn e 0 ≠ S.conn e 1 := fun h => by simpa using hc 0 (by norm_num) 1 (by norm_num) h
    have n02 : S.conn e 0 ≠ S.conn e 2 := fun h => by simpa using hc 0 (by norm_num) 2 (by norm_num) h
    have n03 : S.conn e 0 ≠ S.conn e 3 := fun h => by simpa using hc 0 (by norm_num) 3 (by norm_num) h
    have n12 : S.conn e 1 ≠ S.conn e 2 := fun h => by simpa using hc 1 (by norm_num) 2 (by norm_num) h
    have n13 : S.conn e 1 ≠ S.conn e 3 := fun h => by simpa using hc 1 (by norm_num) 3 (by norm_num) h
    have n23 : S.conn e 2 ≠ S.conn e 3 := fun h => by simpa using hc 2 (by norm_num) 3 (by norm_num) h
    generalize S.conn e 0 = c0 at *
    generalize S.conn e 1 = c1 at *
    generalize S.conn e 2 = c2 at *
    generalize S.conn e 3 = c3 at *
    dsimp only [w]
    by_cases h0 : c0 = n
    · subst h0
      refine ⟨normal2 X c2 c1 j, normal2 X c3 c2 j, normal2 X c1 c3 j, fun Q hQ => ?_, ?_⟩
      · rw [hq Q hQ, hj Q hQ]
        fin_cases j <;> simp [normal2, n01.symm, n02.symm, n03.symm] <;> ring
      · fin_cases j <;> simp [normal2, n01.symm, n02.symm, n03.symm] <;> ring
    by_cases h1 : c1 = n
    · subst h1
      refine ⟨normal2 X c0 c2 j, normal2 X c2 c3 j, normal2 X c2 c0 j, fun Q hQ => ?_, ?_⟩
      · rw [hq Q hQ, hj Q hQ]
        fin_cases j <;> simp [normal2, n01, n12.symm, n13.symm] <;> ring
      · fin_cases j <;> simp [normal2, n01, n12.symm, n13.symm] <;> ring
    by_cases h2 : c2 = n
    · subst h2
      refine ⟨normal2 X c1 c0 j, normal2 X c0 c1 j, normal2 X c3 c1 j, fun Q hQ => ?_, ?_⟩
      · rw [hq Q hQ, hj Q hQ]
        fin_cases j <;> simp [normal2, n02, n12, n23.symm] <;> ring
      · fin_cases j <;> simp [normal2, n02, n12, n23.symm] <;> ring
    by_cases h3 : c3 = n
    · subst h3
      refine ⟨0, normal2 X c1 c0 j, normal2 X c0 c2 j, fun Q hQ => ?_, ?_⟩
      · rw [hq Q hQ, hj Q hQ]
        fin_cases j <;> simp [normal2, n03, n13, n23] <;> ring
      · fin_cases j <;> simp [normal2, n03, n13, n23] <;> ring
    exact ⟨0, 0, 0, fun Q hQ => by rw [hq Q hQ]; simp [h0, h1, h2, h3], by simp [h0, h1, h2, h3]⟩
  obtain ⟨α, β, γ, h1, h2⟩ := key
  rw [← h2, sum_congr rfl fun Q hQ => by rw [h1 Q (mem_range.1 hQ)]]
  have : ∀ Q, s.wt Q * (α + β * x Q + γ * y Q) = α * s.wt Q + β * (s.wt Q * x Q) + γ * (s.wt Q * y Q) := fun Q => by ring
  simp only [this, sum_add_distrib, ← mul_sum, h.wt, h.wtx, h.wty]
  ring

/-- **C71, patch test for bilinear quadrilaterals** of any shape. -/
theorem C71_patch_quadrilaterals {S : Setup .two} {s : Shapes} {X : S.Nodal} {x y : ℕ → ℝ} (hm : Meaning S s) (hn : Nondegenerate S s) (hu : Unity S s)
    (ht : Quadrilaterals S s X x y) (bdr : List (Fin S.nn × Fin S.nn)) (hb : Boundary4 S bdr) (hX : Positions S s X) (A : M 2) (c : Fin 2 → ℝ)
    (σ : M 2 → Option (M 2)) (hσ : ∀ p, S.material p = σ) (P : M 2) (hP : materialFlux ops2 S.on σ A = some P) (n : Fin S.nn) (i : Fin 2) :
    S.residual (fun n i => (A *ᵥ X n) i + c i) (fun _ _ => 0) n i =
      (bdr.map fun b => if b.1 = n ∨ b.2 = n then 1 / 2 * (P *ᵥ normal2 X b.1 b.2) i else 0).sum := by
  rw [C71_uniform hm hn hu X hX A c σ hσ P hP n i]
  have key : ∀ j : Fin 2, integral S s (fun ee Q => shapeGrad S s n ee.1 Q j) =
      1 / 2 * (bdr.map fun b => if b.1 = n ∨ b.2 = n then normal2 X b.1 b.2 j else 0).sum := by
    intro j
    rw [← hb (fun p q => if p = n ∨ q = n then normal2 X p q j else 0) (fun p q => by
      by_cases hpq : p = n ∨ q = n
      · rw [if_pos hpq, if_pos hpq.symm]
        fin_cases j <;> simp [normal2]
      · rw [if_neg hpq, if_neg fun h => hpq h.symm, neg_zero])]
    unfold integral
    rw [← List.sum_map_mul_left, ← sum_zipIdx S.elements _ 0]
    congr 1
    exact List.map_congr_left fun ee hee => quad_element ht hn n (mem_zipIdx_fst hee) j
  change ∑ j : Fin 2, _ = _
  simp only [key, Fin.sum_univ_two, Matrix.mulVec, dotProduct]
  clear hb key
  induction bdr with
  | nil => simp
  | cons b l ih =>
    simp only [List.map_cons, List.sum_cons] at ih ⊢
    rw [← ih]
    split_ifs <;> ring

/-! ## The elements of the library -/

/-- **C71, the functions sum to one and their gradients to zero**: triangles and tetrahedra of all orders (`C17_triangle`, `C17_tetrahedron`), -/
theorem C71_unity_simplex {D n p : ℕ} {node : Fin n → Fin D → ℝ} {N : (Fin D → ℝ) → Fin n → ℝ} {G : (Fin D → ℝ) → Fin n → Fin D → ℝ}
    (h : C17.IsNodalBasis p node N G) (x : Fin D → ℝ) : ∑ a, N x a = 1 ∧ ∀ k, ∑ a, G x a k = 0 := by
  refine ⟨h.sum_one x, fun k => ?_⟩
  have h1 : HasDerivAt (fun t => ∑ a, N (Function.update x k t) a) (∑ a, G x a k) (x k) := HasDerivAt.fun_sum fun a _ => h.gradient x a k
  simp only [h.sum_one] at h1
  exact h1.unique (hasDerivAt_const _ _)

/-- quadrilaterals and hexahedra, if the functions on the line do (`C17_lobatto_sum`). -/
theorem C71_unity_quad (r : SF.Rule ℝ) (h : ∀ x, ∑ a ∈ range r.n, r.N a x = 1) (h' : ∀ x, ∑ a ∈ range r.n, r.dN a x = 0) (Q : ℕ) :
    ∑ a ∈ range (Kernels.quad r).ndof, C51.quadPhi r Q a = 1 ∧ ∀ k : Fin 2, ∑ a ∈ range (Kernels.quad r).ndof, C51.quadGrad r Q a k = 0 := by
  constructor
  · change ∑ a ∈ range (r.n * r.n), r.N (a % r.n) (r.pt (Q % r.q)) * r.N (a / r.n) (r.pt (Q / r.q)) = 1
    rw [C42.sum_flat2 r.n fun _ j i => r.N i (r.pt (Q % r.q)) * r.N j (r.pt (Q / r.q))]
    simp only [← sum_mul, h, one_mul]
  · intro k
    fin_cases k
    · change ∑ a ∈ range (r.n * r.n), r.dN (a % r.n) (r.pt (Q % r.q)) * r.N (a / r.n) (r.pt (Q / r.q)) = 0
      rw [C42.sum_flat2 r.n fun _ j i => r.dN i (r.pt (Q % r.q)) * r.N j (r.pt (Q / r.q))]
      simp only [← sum_mul, h', zero_mul, sum_const_zero]
    · change ∑ a ∈ range (r.n * r.n), r.N (a % r.n) (r.pt (Q % r.q)) * r.dN (a / r.n) (r.pt (Q / r.q)) = 0
      rw [C42.sum_flat2 r.n fun _ j i => r.N i (r.pt (Q % r.q)) * r.dN j (r.pt (Q / r.q))]
      simp only [← sum_mul, h, one_mul, h']

theorem C71_unity_hex (r : SF.Rule ℝ) (h : ∀ x, ∑ a ∈ range r.n, r.N a x = 1) (h' : ∀ x, ∑ a ∈ range r.n, r.dN a x = 0) (Q : ℕ) :
    ∑ a ∈ range (Kernels.hex r).ndof, C51.hexPhi r Q a = 1 ∧ ∀ k : Fin 3, ∑ a ∈ range (Kernels.hex r).ndof, C51.hexGrad r Q a k = 0 := by
  have key : ∀ f g k : ℕ → ℝ, ∑ a ∈ range (r.n * r.n * r.n), f (a % r.n) * g (a / r.n % r.n) * k (a / r.n / r.n) =
      (∑ a ∈ range r.n, f a) * (∑ a ∈ range r.n, g a) * ∑ a ∈ range r.n, k a := by
    intro f g k
    rw [C42.sum_flat3 r.n fun _ c b a => f a * g b * k c]
    simp only [← sum_mul, ← mul_sum]
  constructor
  · exact (key (fun a => r.N a (C42.px r Q)) (fun a => r.N a (C42.py r Q)) fun a => r.N a (C42.pz r Q)).trans (by simp [h])
  · intro k
    fin_cases k
    · exact (key (fun a => r.dN a (C42.px r Q)) (fun a => r.N a (C42.py r Q)) fun a => r.N a (C42.pz r Q)).trans (by simp [h'])
    · exact (key (fun a => r.N a (C42.px r Q)) (fun a => r.dN a (C42.py r Q)) fun a => r.N a (C42.pz r Q)).trans (by simp [h'])
    · exact (key (fun a => r.N a (C42.px r Q)) (fun a => r.N a (C42.py r Q)) fun a => r.dN a (C42.pz r Q)).trans (by simp [h'])

/-- **C71, positions.**  If the functions of the geometry are combinations of those of the displacement (`T a b`: function `b` of the geometry at node `a`), the
positions of the nodes are a nodal field with the Jacobian as derivative. -/
theorem C71_positions (T : ℕ → ℕ → ℝ) (hT : ∀ Q < S.E.npts, ∀ b < S.G.ndof, ∀ k : Fin d.n, s.dphiG Q b k = ∑ a ∈ range S.E.ndof, T a b * s.dphi Q a k) (X : S.Nodal)
    (hX : ∀ e ∈ S.elements, ∀ a < S.E.ndof, ∀ i, X (S.conn e a) i = ∑ b ∈ range S.G.ndof, S.pos (S.connG e b) i * T a b) : Positions S s X := by
  intro e he Q hQ
  funext i k
  unfold parGrad jac
  have h1 : ∀ a ∈ range S.E.ndof, X (S.conn e a) i * s.dphi Q a k = ∑ b ∈ range S.G.ndof, S.pos (S.connG e b) i * T a b * s.dphi Q a k := fun a ha => by
    rw [hX e he a (mem_range.1 ha), sum_mul]
  rw [sum_congr rfl h1, sum_comm]
  refine sum_congr rfl fun b hb => ?_
  rw [hT Q hQ b (mem_range.1 hb), mul_sum]
  exact sum_congr rfl fun a _ => by ring

/-! ## Example: four triangles around an inner node of a square -/

def exPos : Fin 5 → Fin 2 → ℝ := ![![0, 0], ![1, 0], ![1, 1], ![0, 1], ![2 / 5, 3 / 10]]
def exConn (e a : ℕ) : Fin 5 := if a = 0 then Fin.ofNat 5 (e % 4) else if a = 1 then Fin.ofNat 5 ((e + 1) % 4) else 4

def exSetup : Setup .two where
  E := simplex C51.tri
  G := simplex C51.tri
  nn := 5
  ng := 5
  conn := exConn
  connG := exConn
  pos := exPos
  ne := 4
  elements := [0, 1, 2, 3]
  on := true
  density := 1
  material := fun _ => nh2 1 1

def exShapes : Shapes where
  phi _ a := C51.tri.phi (1 / 3, 1 / 3) a
  dphi _ a k := C51.tri.dphi (1 / 3, 1 / 3) a k
  wt _ := 1 / 2
  phiG _ a := C51.tri.phi (1 / 3, 1 / 3) a
  dphiG _ a k := C51.tri.dphi (1 / 3, 1 / 3) a k

theorem ex_meaning : Meaning exSetup exShapes :=
  ⟨(C51.C51_simplex C51.tri).1, (C51.C51_simplex C51.tri).2, (C51.C51_simplex C51.tri).1, rfl, by simp [exSetup]⟩

theorem ex_unity : Unity exSetup exShapes := by
  intro Q _
  constructor
  · simp [exSetup, simplex, exShapes, C51.tri, sum_range_succ]
  · intro k
    fin_cases k <;> simp [exSetup, simplex, exShapes, C51.tri, sum_range_succ]

theorem ex_triangles : Triangles exSetup exShapes exPos := by
  refine ⟨rfl, rfl, fun Q _ a k => ?_, fun Q _ a k => ?_, ?_, fun e _ a _ => rfl⟩
  · fin_cases a <;> fin_cases k <;> simp [exShapes, C51.tri, Nodal.tri1Grad]
  · fin_cases a <;> fin_cases k <;> simp [exShapes, C51.tri, Nodal.tri1Grad]
  · simp [exSetup, simplex, exShapes, C51.tri]

theorem ex_positions : Positions exSetup exShapes exPos := fun _ _ _ _ => rfl

theorem ex_nondegenerate : Nondegenerate exSetup exShapes := by
  intro e he Q hQ
  rw [triangle_jac ex_triangles he hQ, Matrix.det_fin_two]
  have he : e = 0 ∨ e = 1 ∨ e = 2 ∨ e = 3 := by simpa [exSetup] using he
  rcases he with rfl | rfl | rfl | rfl <;> simp [exSetup, exConn, exPos, Fin.ofNat] <;> norm_num

theorem ex_boundary : Boundary2 exSetup ([(0, 1), (1, 2), (2, 3), (3, 0)] : List (Fin 5 × Fin 5)) := by
  intro w hw
  change w (0 : Fin 5) (1 : Fin 5) + w (1 : Fin 5) (4 : Fin 5) + w (4 : Fin 5) (0 : Fin 5) + (w (1 : Fin 5) (2 : Fin 5) + w (2 : Fin 5) (4 : Fin 5) + w (4 : Fin 5) (1 : Fin 5) +
    (w (2 : Fin 5) (3 : Fin 5) + w (3 : Fin 5) (4 : Fin 5) + w (4 : Fin 5) (2 : Fin 5) + (w (3 : Fin 5) (0 : Fin 5) + w (0 : Fin 5) (4 : Fin 5) + w (4 : Fin 5) (3 : Fin 5) + 0))) =
    w (0 : Fin 5) (1 : Fin 5) + (w (1 : Fin 5) (2 : Fin 5) + (w (2 : Fin 5) (3 : Fin 5) + (w (3 : Fin 5) (0 : Fin 5) + 0)))
  rw [hw (0 : Fin 5) (4 : Fin 5), hw (1 : Fin 5) (4 : Fin 5), hw (2 : Fin 5) (4 : Fin 5), hw (3 : Fin 5) (4 : Fin 5)]
  ring

theorem ex_inside : ∀ b ∈ ([(0, 1), (1, 2), (2, 3), (3, 0)] : List (Fin 5 × Fin 5)), b.1 ≠ 4 ∧ b.2 ≠ 4 := by decide

/-- Stretching the square by two in one direction leaves the inner node without force, although its triangles are all different. -/
example : ∃ P, materialFlux ops2 true (nh2 1 1) !![1, 0; 0, 0] = some P ∧
    ∀ i, exSetup.residual (fun n i => (!![1, 0; 0, 0] *ᵥ exPos n) i + ![7, 8] i) (fun _ _ => 0) (4 : Fin 5) i = 0 := by
  have hd : 0 < (1 + !![1, 0; 0, 0] : M 2).det := by
    rw [Matrix.det_fin_two]
    simp
  have h1 := ((C31.C31_neoHookean 1 1).1.2.1.1 !![1, 0; 0, 0]).1 hd
  obtain ⟨σ, hσ⟩ := Option.isSome_iff_exists.1 h1
  have h2 := ((C33.C33_flux_on C33.exact2 σ !![1, 0; 0, 0]).1).2 hd.ne'
  obtain ⟨P, hP⟩ := Option.isSome_iff_exists.1 h2
  have hP' : materialFlux ops2 true (nh2 1 1) !![1, 0; 0, 0] = some P := by
    unfold materialFlux
    rw [hσ, Option.bind_some, hP]
  refine ⟨P, hP', fun i => ?_⟩
  refine C71_patch_triangles_inside ex_meaning ex_nondegenerate ex_unity ex_triangles _ ex_boundary ex_positions _ ![7, 8] (nh2 1 1) (fun _ => rfl) P hP' _ ex_inside i

/-- Turning the square by a right angle and moving it away costs nothing. -/
example (i : Fin 2) (n : Fin 5) : exSetup.residual (moved (S := exSetup) !![0, -1; 1, 0] ![3, 4] exPos fun _ _ => 0) (fun _ _ => 0) n i = 0 :=
  C71_rigid ex_meaning ex_nondegenerate ex_unity exPos ex_positions (fun _ => (C31.C31_neoHookean 1 1).1.2.2) (fun _ => (C31.C31_neoHookean 1 1).1.1) rfl
    !![0, -1; 1, 0] ⟨by ext i j; fin_cases i <;> fin_cases j <;> simp [Matrix.mul_apply], by simp [Matrix.det_fin_two]⟩ ![3, 4] n i

end Serac.C71
