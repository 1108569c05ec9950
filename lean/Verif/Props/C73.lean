import Verif.Model.SolidDynamics
import Verif.Props.C71
import Verif.Props.C20
import Verif.Props.C31
import Verif.Props.C72
import Mathlib.Tactic.Module
/-!
# C73: a free body keeps its momentum, an elastic body its energy

Spec.  `∫` is the quadrature sum over elements and points of C71.  For displacement `x` and acceleration `a` of all true dofs, the residual tested with `v` is
`∫ ρ a·v + ∫ P : ∇v - ∫ b·v` with the body forces `b` over their domains (`C73_weak_form`).  From there the steps of `SecondOrderODE` with Newmark's method or backward
Euler are followed: total momentum, energy, existence of the solution of a stage.

Assumed of the nonlinear solver (`Solves`): a root where the stress is defined, fixed dofs kept (C26).  `C73_solvable` shows that such a solver exists for elastic
bodies.  Steps use DirectControl.
-/

noncomputable section
namespace Serac.C73
open Serac.Tensor Serac.Transform Serac.Kernels Serac.Solid Finset
open Serac.C71 (M Shapes Meaning Nondegenerate Unity Stress value grad gather_at scatter_dot list_sum_comm getD_zipIdx mem_zipIdx_fst)
open scoped Matrix

variable {d : Dim} (B : Body d) (s : Shapes)

/-! ## Spec -/

/-- `∫` over a list of elements. -/
def integral (l : List ℕ) (f : ℕ × ℕ → ℕ → ℝ) : ℝ :=
  (l.zipIdx.map fun ee => ∑ Q ∈ range B.S.E.npts, s.wt Q * ((C71.jac B.S s ee.1 Q).det * f ee Q)).sum

/-- Value and gradient of a vector of true dofs at point `Q` of element `e`. -/
def val (v : Ode.Vec B.N) (e Q : ℕ) (i : Fin d.n) : ℝ := value B.S s (B.nodal v) e Q i
def grd (v : Ode.Vec B.N) (e Q : ℕ) (i j : Fin d.n) : ℝ := grad B.S s (B.nodal v) e Q i j

/-- The domains of the forces exist. -/
def Domains : Prop := ∀ f ∈ B.forces, ∀ e ∈ f.elements, e < B.S.ne

/-- Virtual work of inertia, `∫ ρ a·v`, and of the body forces, `∫ b·v`. -/
def inertia (a v : Ode.Vec B.N) : ℝ := integral B s B.S.elements fun ee Q => B.S.density * ∑ i, val B s a ee.1 Q i * val B s v ee.1 Q i
def load (t : ℝ) (v : Ode.Vec B.N) : ℝ :=
  (B.forces.map fun f => integral B s f.elements fun ee Q => ∑ i, f.value t (ee.2 * B.S.E.npts + Q) i * val B s v ee.1 Q i).sum

variable {B s}

/-! ## The residual -/

theorem over_meaning (hm : Meaning B.S s) {l : List ℕ} (hl : ∀ e ∈ l, e < B.S.ne) : Meaning (B.over l) s :=
  ⟨hm.trial, hm.test, hm.geom, hm.dim, hl⟩

/-- What a body force adds to the element vector. -/
theorem force_vector (hm : Meaning B.S s) (f : Force d) (hf : ∀ e ∈ f.elements, e < B.S.ne) (t : ℝ) (U r : ℕ → ℝ) (e : ℕ) {k : ℕ} (hk : k < B.S.E.ndof)
    (i : Fin d.n) :
    evalKernel B.S.E B.S.E d.n d.n false true (B.forceFn f t) f.elements U r (e * (d.n * B.S.E.ndof) + (i * B.S.E.ndof + k)) =
      r (e * (d.n * B.S.E.ndof) + (i * B.S.E.ndof + k)) + (f.elements.zipIdx.map fun ee => if ee.1 = e then
        ∑ Q ∈ range B.S.E.npts, s.wt Q * ((C71.jac B.S s ee.1 Q).det * (-f.value t (ee.2 * B.S.E.npts + Q) i) * s.phi Q k) else 0).sum := by
  have hd : 0 < d.n := by cases d <;> decide
  have ht : (i : ℕ) * B.S.E.ndof + k < d.n * B.S.E.ndof := by
    have := Nat.mul_le_mul_right B.S.E.ndof (Nat.succ_le_of_lt i.2)
    rw [Nat.succ_mul] at this
    omega
  have e1 : ((i : ℕ) * B.S.E.ndof + k) / B.S.E.ndof = i := by
    rw [Nat.mul_comm, Nat.mul_add_div (by omega), Nat.div_eq_of_lt hk, Nat.add_zero]
  have e2 : ((i : ℕ) * B.S.E.ndof + k) % B.S.E.ndof = k := by
    rw [Nat.mul_comm, Nat.mul_add_mod, Nat.mod_eq_of_lt hk]
  rw [C51.eval_at hm.test d.n d.n hd (by rw [hm.dim]; exact hd) false true _ _ _ _ e _ ht]
  congr 2
  refine List.map_congr_left fun ee hee => ?_
  by_cases he : ee.1 = e
  · rw [if_pos he, if_pos he]
    dsimp only
    unfold C51.weigh
    refine sum_congr rfl fun Q hQ => ?_
    have h1 : (ee.2 * B.S.E.npts + Q) / B.S.E.npts = ee.2 := by
      have := mem_range.1 hQ
      rw [Nat.mul_comm, Nat.mul_add_div (by omega), Nat.div_eq_of_lt this, Nat.add_zero]
    have h2 : (ee.2 * B.S.E.npts + Q) % B.S.E.npts = Q := by
      rw [Nat.mul_comm, Nat.mul_add_mod, Nat.mod_eq_of_lt (mem_range.1 hQ)]
    have h3 : (B.over f.elements).jacobian ee.2 Q = C71.jac B.S s ee.1 Q := C71.jacobian_eq (over_meaning hm hf) hee Q
    have h4 : det d (transpose (C71.jac B.S s ee.1 Q)) = (C71.jac B.S s ee.1 Q).det := by
      rw [Transform.det_eq]
      exact Matrix.det_transpose _
    simp only [Bool.false_eq_true, if_false, if_true, zero_mul, sum_const_zero, add_zero, e1, e2]
    unfold Body.forceFn
    dsimp only
    rw [h1, h2, h3, h4]
    simp [flatV]
  · rw [if_neg he, if_neg he]

/-- Product of the vector that an element vector is scattered to with a nodal field. -/
def paired (B : Body d) (r : ℕ → ℝ) (v : B.S.Nodal) : ℝ := ∑ n, ∑ i, scatterE B.S.E.ndof B.S.ne B.S.conn r n i * v n i

theorem paired_force (hm : Meaning B.S s) (f : Force d) (hf : ∀ e ∈ f.elements, e < B.S.ne) (t : ℝ) (U r : ℕ → ℝ) (v : B.S.Nodal) :
    paired B (evalKernel B.S.E B.S.E d.n d.n false true (B.forceFn f t) f.elements U r) v = paired B r v -
      integral B s f.elements fun ee Q => ∑ i, f.value t (ee.2 * B.S.E.npts + Q) i * value B.S s v ee.1 Q i := by
  unfold paired
  rw [scatter_dot, scatter_dot]
  have : ∀ e ∈ range B.S.ne, ∑ k ∈ range B.S.E.ndof, ∑ i : Fin d.n,
      evalKernel B.S.E B.S.E d.n d.n false true (B.forceFn f t) f.elements U r (e * (d.n * B.S.E.ndof) + (i * B.S.E.ndof + k)) * v (B.S.conn e k) i =
      (∑ k ∈ range B.S.E.ndof, ∑ i : Fin d.n, r (e * (d.n * B.S.E.ndof) + (i * B.S.E.ndof + k)) * v (B.S.conn e k) i) +
      (f.elements.zipIdx.map fun ee => if ee.1 = e then -∑ Q ∈ range B.S.E.npts, s.wt Q * ((C71.jac B.S s ee.1 Q).det *
        ∑ i, f.value t (ee.2 * B.S.E.npts + Q) i * value B.S s v ee.1 Q i) else 0).sum := by
    intro e _
    have : ∀ k ∈ range B.S.E.ndof, ∑ i : Fin d.n,
        evalKernel B.S.E B.S.E d.n d.n false true (B.forceFn f t) f.elements U r (e * (d.n * B.S.E.ndof) + (i * B.S.E.ndof + k)) * v (B.S.conn e k) i =
        ∑ i : Fin d.n, r (e * (d.n * B.S.E.ndof) + (i * B.S.E.ndof + k)) * v (B.S.conn e k) i +
        (f.elements.zipIdx.map fun ee => if ee.1 = e then ∑ i : Fin d.n, (∑ Q ∈ range B.S.E.npts, s.wt Q *
          ((C71.jac B.S s ee.1 Q).det * (-f.value t (ee.2 * B.S.E.npts + Q) i) * s.phi Q k)) * v (B.S.conn e k) i else 0).sum := by
      intro k hk
      simp only [force_vector hm f hf t U r e (mem_range.1 hk), add_mul, sum_add_distrib]
      congr 1
      generalize f.elements.zipIdx = L
      induction L with
      | nil => simp
      | cons a l ih =>
        simp only [List.map_cons, List.sum_cons, add_mul, sum_add_distrib, ih]
        congr 1
        split_ifs <;> simp
    rw [sum_congr rfl this, sum_add_distrib, list_sum_comm]
    congr 2
    refine List.map_congr_left fun ee _ => ?_
    split_ifs with he
    · simp only [sum_mul]
      rw [sum_congr rfl fun k _ => sum_comm, sum_comm, ← sum_neg_distrib]
      refine sum_congr rfl fun Q _ => ?_
      simp only [value, mul_sum, ← sum_neg_distrib]
      rw [he, sum_comm]
      exact sum_congr rfl fun i _ => sum_congr rfl fun k _ => by ring
    · simp
  rw [sum_congr rfl this, sum_add_distrib, list_sum_comm, sub_eq_add_neg]
  congr 1
  unfold integral
  rw [List.sum_neg, List.map_map]
  congr 1
  refine List.map_congr_left fun ee hee => ?_
  rw [sum_ite_eq, if_pos (mem_range.2 (hf _ (mem_zipIdx_fst hee)))]
  rfl

theorem vector_dot (r : B.S.Nodal) (v : Ode.Vec B.N) : ∑ k, B.vector r k * v k = ∑ n, ∑ i, r n i * B.nodal v n i := by
  rw [← Fintype.sum_prod_type']
  refine (Fintype.sum_equiv B.num (fun p => r p.1 p.2 * B.nodal v p.1 p.2) _ fun p => ?_).symm
  unfold Body.vector Body.nodal
  rw [Equiv.symm_apply_apply]

/-- **C73, virtual work.**  The residual tested with any vector: inertia and stress against it, minus the body forces. -/
theorem C73_weak_form (hm : Meaning B.S s) (hn : Nondegenerate B.S s) (hf : Domains B) (t : ℝ) (u a v : Ode.Vec B.N) (P : ℕ × ℕ → ℕ → M d.n)
    (hP : Stress B.S s (B.nodal u) P) :
    ∑ k, B.residual t u a k * v k = inertia B s a v + integral B s B.S.elements (fun ee Q => ∑ i, ∑ j, P ee Q i j * grd B s v ee.1 Q i j) - load B s t v := by
  have key : ∀ (l : List (Force d)) (r0 : ℕ → ℝ), (∀ f ∈ l, ∀ e ∈ f.elements, e < B.S.ne) →
      paired B (l.foldl (fun r f => evalKernel B.S.E B.S.E d.n d.n false true (B.forceFn f t) f.elements (gatherE B.S.E.ndof B.S.conn (B.nodal u)) r) r0) (B.nodal v) =
      paired B r0 (B.nodal v) - (l.map fun f => integral B s f.elements fun ee Q => ∑ i, f.value t (ee.2 * B.S.E.npts + Q) i * val B s v ee.1 Q i).sum := by
    intro l
    induction l with
    | nil => intro r0 _; simp
    | cons f l ih =>
      intro r0 h
      rw [List.foldl_cons, ih _ fun x hx => h x (List.mem_cons_of_mem _ hx), List.map_cons, List.sum_cons, paired_force hm f (h f List.mem_cons_self)]
      unfold val
      ring
  unfold Body.residual
  rw [vector_dot]
  refine (key B.forces _ hf).trans ?_
  unfold load
  congr 1
  refine (C71.C71_virtual_work hm hn (B.nodal u) (B.nodal a) (B.nodal v) P hP).trans ?_
  have hadd : ∀ f g : ℕ × ℕ → ℕ → ℝ, C71.integral B.S s (fun ee Q => f ee Q + g ee Q) = C71.integral B.S s f + C71.integral B.S s g := by
    intro f g
    unfold C71.integral
    rw [← List.sum_map_add]
    congr 1
    refine List.map_congr_left fun ee _ => ?_
    rw [← sum_add_distrib]
    exact sum_congr rfl fun Q _ => by ring
  rw [hadd]
  unfold inertia
  congr 1
  refine C71.integral_congr fun ee _ Q _ => ?_
  rw [mul_sum]
  exact sum_congr rfl fun i _ => by unfold val; ring

/-! ## Linearity -/

theorem integral_congr {l : List ℕ} {f g : ℕ × ℕ → ℕ → ℝ} (h : ∀ ee ∈ l.zipIdx, ∀ Q < B.S.E.npts, f ee Q = g ee Q) : integral B s l f = integral B s l g := by
  unfold integral
  congr 1
  exact List.map_congr_left fun ee hee => sum_congr rfl fun Q hQ => by rw [h ee hee Q (mem_range.1 hQ)]

theorem integral_lin (l : List ℕ) (x y : ℝ) (f g : ℕ × ℕ → ℕ → ℝ) :
    integral B s l (fun ee Q => x * f ee Q + y * g ee Q) = x * integral B s l f + y * integral B s l g := by
  unfold integral
  rw [← List.sum_map_mul_left, ← List.sum_map_mul_left, ← List.sum_map_add]
  congr 1
  refine List.map_congr_left fun ee _ => ?_
  rw [mul_sum, mul_sum, ← sum_add_distrib]
  exact sum_congr rfl fun Q _ => by ring

theorem integral_zero (l : List ℕ) : integral B s l (fun _ _ => 0) = 0 := by
  unfold integral
  simp

theorem val_lin (x y : ℝ) (v w : Ode.Vec B.N) (e Q : ℕ) (i : Fin d.n) : val B s (x • v + y • w) e Q i = x * val B s v e Q i + y * val B s w e Q i := by
  unfold val value Body.nodal
  rw [mul_sum, mul_sum, ← sum_add_distrib]
  exact sum_congr rfl fun a _ => by simp; ring

theorem grd_lin (x y : ℝ) (v w : Ode.Vec B.N) (e Q : ℕ) (i j : Fin d.n) : grd B s (x • v + y • w) e Q i j = x * grd B s v e Q i j + y * grd B s w e Q i j := by
  unfold grd grad
  rw [Matrix.mul_apply, Matrix.mul_apply, Matrix.mul_apply, mul_sum, mul_sum, ← sum_add_distrib]
  refine sum_congr rfl fun l _ => ?_
  unfold C71.parGrad Body.nodal
  rw [← mul_assoc, ← mul_assoc, ← add_mul, mul_sum, mul_sum, ← sum_add_distrib]
  congr 1
  exact sum_congr rfl fun a _ => by simp; ring

theorem inertia_symm (a v : Ode.Vec B.N) : inertia B s a v = inertia B s v a :=
  integral_congr fun ee _ Q _ => by simp only [mul_comm]

theorem inertia_lin (x y : ℝ) (a a' v : Ode.Vec B.N) : inertia B s (x • a + y • a') v = x * inertia B s a v + y * inertia B s a' v := by
  unfold inertia
  rw [← integral_lin]
  refine integral_congr fun ee _ Q _ => ?_
  simp only [val_lin, mul_sum, ← sum_add_distrib]
  exact sum_congr rfl fun i _ => by ring

theorem load_lin (t x y : ℝ) (v w : Ode.Vec B.N) : load B s t (x • v + y • w) = x * load B s t v + y * load B s t w := by
  unfold load
  rw [← List.sum_map_mul_left, ← List.sum_map_mul_left, ← List.sum_map_add]
  congr 1
  refine List.map_congr_left fun f _ => ?_
  rw [← integral_lin]
  refine integral_congr fun ee _ Q _ => ?_
  simp only [val_lin, mul_sum, ← sum_add_distrib]
  exact sum_congr rfl fun i _ => by ring

/-- From two-term linearity to linear maps. -/
def toLin {V : Type} [AddCommGroup V] [Module ℝ V] (f : V → ℝ) (h : ∀ (x y : ℝ) (v w : V), f (x • v + y • w) = x * f v + y * f w) : V →ₗ[ℝ] ℝ where
  toFun := f
  map_add' v w := by simpa using h 1 1 v w
  map_smul' x v := by simpa using h x 0 v 0

def toBilin {V : Type} [AddCommGroup V] [Module ℝ V] (f : V → V → ℝ) (h : ∀ (x y : ℝ) (v w u : V), f (x • v + y • w) u = x * f v u + y * f w u)
    (hs : ∀ v w, f v w = f w v) : V →ₗ[ℝ] V →ₗ[ℝ] ℝ :=
  LinearMap.mk₂ ℝ f (fun v w u => by simpa using h 1 1 v w u) (fun x v u => by simpa using h x 0 v 0 u)
    (fun v w u => by rw [hs, hs v w, hs v u]; simpa using h 1 1 w u v) (fun x v u => by rw [hs, hs v u]; simpa using h x 0 u 0 v)

/-- Inertia as a bilinear form, the forces at a time as a linear form. -/
def massForm (B : Body d) (s : Shapes) : Ode.Vec B.N →ₗ[ℝ] Ode.Vec B.N →ₗ[ℝ] ℝ := toBilin (inertia B s) inertia_lin inertia_symm
def loadForm (B : Body d) (s : Shapes) (t : ℝ) : Ode.Vec B.N →ₗ[ℝ] ℝ := toLin (load B s t) (load_lin t)

/-! ## The algebra of the steps -/

section Algebra
variable {V : Type} [AddCommGroup V] [Module ℝ V] (m k : V →ₗ[ℝ] V →ₗ[ℝ] ℝ)

/-- Newmark with `γ = 1/2`: the change of energy is the work of the mean load, up to the change of a multiple of the square of the acceleration. -/
theorem newmark_energy (hm : ∀ v w, m v w = m w v) (hk : ∀ v w, k v w = k w v) (f f' : V →ₗ[ℝ] ℝ) (β dt : ℝ) (x v a x' v' a' : V)
    (hx : x' = x + dt • v + (dt * dt) • ((1 / 2 - β) • a + β • a')) (hv : v' = v + dt • ((1 / 2 : ℝ) • a + (1 / 2 : ℝ) • a'))
    (h : m a (x' - x) + k x (x' - x) = f (x' - x)) (h' : m a' (x' - x) + k x' (x' - x) = f' (x' - x)) :
    1 / 2 * m v' v' + 1 / 2 * k x' x' + 1 / 2 * (dt * dt) * (β - 1 / 4) * m a' a' =
      1 / 2 * m v v + 1 / 2 * k x x + 1 / 2 * (dt * dt) * (β - 1 / 4) * m a a + 1 / 2 * (f (x' - x) + f' (x' - x)) := by
  have e1 : m v' v' - m v v = m (v' - v) (v' + v) := by
    simp only [map_sub, map_add, LinearMap.sub_apply]
    rw [hm v v']
    ring
  have e2 : k x' x' - k x x = k x (x' - x) + k x' (x' - x) := by
    simp only [map_sub]
    rw [hk x x']
    ring
  have e3 : x' - x = (dt / 2) • (v' + v) + (dt * dt * (β - 1 / 4)) • (a' - a) := by
    rw [hx, hv]
    module
  have e4 : v' - v = (dt / 2) • (a + a') := by
    rw [hv]
    module
  have e5 : m a (x' - x) + m a' (x' - x) = dt / 2 * m (a + a') (v' + v) + dt * dt * (β - 1 / 4) * (m a' a' - m a a) := by
    rw [e3]
    simp only [map_sub, map_add, map_smul, LinearMap.add_apply, smul_eq_mul]
    rw [hm a a']
    ring
  have e6 : m (v' - v) (v' + v) = dt / 2 * m (a + a') (v' + v) := by rw [e4, map_smul, LinearMap.smul_apply, smul_eq_mul]
  linarith

/-- Backward Euler: the energy changes by the work of the load minus the squares of both increments. -/
theorem euler_energy (hm : ∀ v w, m v w = m w v) (hk : ∀ v w, k v w = k w v) (f' : V →ₗ[ℝ] ℝ) (dt : ℝ) (x v x' v' a' : V)
    (hx : x' = x + dt • v') (hv : v' = v + dt • a') (h' : m a' (x' - x) + k x' (x' - x) = f' (x' - x)) :
    1 / 2 * m v' v' + 1 / 2 * k x' x' + 1 / 2 * m (v' - v) (v' - v) + 1 / 2 * k (x' - x) (x' - x) =
      1 / 2 * m v v + 1 / 2 * k x x + f' (x' - x) := by
  have e1 : m v' v' + m (v' - v) (v' - v) - m v v = 2 * m (v' - v) v' := by
    simp only [map_sub, LinearMap.sub_apply]
    rw [hm v v']
    ring
  have e2 : k x' x' + k (x' - x) (x' - x) - k x x = 2 * k x' (x' - x) := by
    simp only [map_sub, LinearMap.sub_apply]
    rw [hk x x']
    ring
  have e3 : x' - x = dt • v' := by rw [hx]; module
  have e4 : v' - v = dt • a' := by rw [hv]; module
  have e5 : m (v' - v) v' = m a' (x' - x) := by rw [e4, e3, map_smul, map_smul, LinearMap.smul_apply]
  linarith

end Algebra

/-! ## The steps -/

/-- The equations of motion hold at `x` with acceleration `a`, except at the fixed dofs. -/
def Balanced (B : Body d) (fixed : List (Fin B.N)) (t : ℝ) (x a : Ode.Vec B.N) : Prop := ∀ k ∉ fixed, B.residual t x a k = 0

/-- The stress of the displacement is defined. -/
def Defined (B : Body d) (s : Shapes) (x : Ode.Vec B.N) : Prop := ∃ P, Stress B.S s (B.nodal x) P

/-- Assumption on the nonlinear solver: it returns a root of the residual where the stress is defined and keeps the fixed dofs. -/
structure Solves (B : Body d) (s : Shapes) (b : Ode.BCs B.N) (solve : Ode.State2 B.N → Ode.Vec B.N → Ode.Vec B.N) : Prop where
  keeps : Ode.Keeps b solve
  root : ∀ st v, 0 ≤ st.c0 → B.accResidual b.allDofs st (solve st v) = 0
  defined : ∀ st v, 0 ≤ st.c0 → Defined B s fun k => 1 * st.u k + st.c0 * solve st v k

/-- What is known between steps: the fixed dofs have their prescribed values, and an acceleration that the integrator carries along balances the forces. -/
structure Ready (B : Body d) (s : Shapes) (b : Ode.BCs B.N) (g : ℝ → Fin B.N → ℝ) (r : Ode.Run2 B.N) : Prop where
  fixed : ∀ i ∈ b.allDofs, r.x i = g r.t i
  carried : r.first = false → Balanced B b.allDofs r.t r.x r.d2xdt2 ∧ Defined B s r.x

section Steps
variable {b : Ode.BCs B.N} {g : ℝ → Fin B.N → ℝ} {solve : Ode.State2 B.N → Ode.Vec B.N → Ode.Vec B.N}

/-- What `SecondOrderODE::Solve` asked of the nonlinear solver. -/
theorem asked {m : Ode.Enforce} {st st' : Ode.State2 B.N} {time c0 c1 : ℝ} {u du a : Ode.Vec B.N}
    (hs : Ode.solve2 b m solve st time c0 c1 u du = some (st', a)) : ∃ q v, a = solve q v ∧ q.time = time ∧ q.c0 = c0 ∧ q.u = st'.u := by
  unfold Ode.solve2 at hs
  cases hcon : Ode.constraint2 b m time c0 c1 u du with
  | none => rw [hcon] at hs; simp at hs
  | some c =>
    rw [hcon, Option.map_some, Option.some_inj, Prod.mk.injEq] at hs
    exact ⟨_, _, hs.2.symm, rfl, rfl, by rw [← hs.1]⟩

/-- One evaluation by `SecondOrderODE::Solve`: the acceleration balances the forces at the displacement it leads to. -/
theorem stage (h : Solves B s b solve) {m : Ode.Enforce} {st st' : Ode.State2 B.N} {time c0 c1 : ℝ} {u du a : Ode.Vec B.N} (hc : 0 ≤ c0)
    (hs : Ode.solve2 b m solve st time c0 c1 u du = some (st', a)) (hu : ∀ i ∈ b.allDofs, st'.u i = u i) :
    Balanced B b.allDofs time (u + c0 • a) a ∧ Defined B s (u + c0 • a) := by
  obtain ⟨q, v, ha, ht, hc0, hq⟩ := asked hs
  have hall : q.u = u := by
    rw [hq]
    funext i
    by_cases hi : i ∈ b.allDofs
    · exact hu i hi
    · exact (C20.C20_free m solve st st' time c0 c1 u du a hs i hi).1
  have e : (fun k => 1 * q.u k + q.c0 * solve q v k) = u + c0 • a := by
    rw [hall, hc0, ← ha]
    funext k
    simp
  have h1 := h.root q v (by rw [hc0]; exact hc)
  have h2 := h.defined q v (by rw [hc0]; exact hc)
  rw [e] at h2
  refine ⟨fun k hk => ?_, h2⟩
  have := congrFun h1 k
  unfold Body.accResidual at this
  rw [if_neg hk, e, ht, ← ha] at this
  exact this

/-- A Newmark step under direct control. -/
theorem newmark_step (h : Solves B s b solve) (hg : Ode.Prescribes b g) {β dt : ℝ} (γ : ℝ) (hβ : 0 < β) (hdt : 0 < dt) {r : Ode.Run2 B.N} (hr : Ready B s b g r) :
    ∃ r' a, Ode.step2 b .direct solve β γ dt r = some r' ∧ r'.t = r.t + dt ∧ r'.first = false ∧ Ready B s b g r' ∧
      Balanced B b.allDofs r.t r.x a ∧ Defined B s r.x ∧ (r.first = false → a = r.d2xdt2) ∧
      r'.x = r.x + dt • r.dxdt + (dt * dt) • ((1 / 2 - β) • a + β • r'.d2xdt2) ∧ r'.dxdt = r.dxdt + dt • ((1 - γ) • a + γ • r'.d2xdt2) := by
  obtain ⟨st, a, hfirst, hbal, hdef, hcar⟩ : ∃ st a, (if r.first then (Ode.solve2 b .direct solve r.st r.t 0 0 r.x r.dxdt) else some (r.st, r.d2xdt2)) = some (st, a) ∧
      Balanced B b.allDofs r.t r.x a ∧ Defined B s r.x ∧ (r.first = false → a = r.d2xdt2) := by
    by_cases hf : r.first = true
    · obtain ⟨st', a, h1, h2⟩ := C20.C20_explicit hg h.keeps .direct r.st r.t r.x r.dxdt
      obtain ⟨h3, h4⟩ := stage h le_rfl h1 fun i hi => by rw [(h2 i hi).1, hr.fixed i hi]
      rw [zero_smul, add_zero] at h3 h4
      exact ⟨st', a, by rw [if_pos hf, h1], h3, h4, fun h => absurd (hf.symm.trans h) (by decide)⟩
    · have hf' : r.first = false := by simpa using hf
      obtain ⟨h3, h4⟩ := hr.carried hf'
      exact ⟨r.st, r.d2xdt2, by rw [if_neg hf], h3, h4, fun _ => rfl⟩
  have hc0 : β * dt * dt ≠ 0 := by positivity
  have hc : ∀ x1 v1 : Ode.Vec B.N, Ode.constraint2 b .direct (r.t + dt) (β * dt * dt) (γ * dt) x1 v1 =
      some (x1, v1, fun i => (1 / (β * dt * dt)) * (b.eval (r.t + dt) i - x1 i)) := by
    intro x1 v1
    rw [Ode.constraint2, if_pos (Or.inl hc0)]
    rw [if_neg hc0]
  obtain ⟨st', a', hs, -, -, -, -, hd, -⟩ := Ode.solve2_spec h.keeps st (hc (fun i => r.x i + dt * r.dxdt i + ((1 / 2 - β) * dt * dt) * a i)
    fun i => r.dxdt i + ((1 - γ) * dt) * a i)
  obtain ⟨hb', hd'⟩ := stage h (by positivity) hs fun i hi => (hd i hi).1
  unfold Ode.step2 Ode.newmarkStep
  rw [hfirst, Option.bind_some]
  dsimp only
  rw [hs]
  refine ⟨_, a, rfl, rfl, rfl, ⟨fun i hi => ?_, fun _ => ⟨?_, ?_⟩⟩, hbal, hdef, hcar, ?_, ?_⟩
  · dsimp only [Ode.afterStep]
    rw [(hd i hi).2.2, Ode.eval_mem hg _ hi]
    field_simp
    ring
  · exact hb'
  · exact hd'
  · funext i
    simp [Ode.afterStep]
    ring
  · funext i
    simp [Ode.afterStep]
    ring

/-- A backward Euler step under direct control. -/
theorem euler_step (h : Solves B s b solve) (hg : Ode.Prescribes b g) {dt : ℝ} (hdt : 0 < dt) (r : Ode.Run2 B.N) :
    ∃ r' a', Ode.stepBE2 b .direct solve dt r = some r' ∧ r'.t = r.t + dt ∧ (∀ i ∈ b.allDofs, r'.x i = g r'.t i) ∧
      Balanced B b.allDofs r'.t r'.x a' ∧ Defined B s r'.x ∧ r'.x = r.x + dt • r'.dxdt ∧ r'.dxdt = r.dxdt + dt • a' := by
  have hc0 : dt * dt ≠ 0 := by positivity
  have hc : ∀ x1 v1 : Ode.Vec B.N, Ode.constraint2 b .direct (r.t + dt) (dt * dt) dt x1 v1 = some (x1, v1, fun i => (1 / (dt * dt)) * (b.eval (r.t + dt) i - x1 i)) := by
    intro x1 v1
    rw [Ode.constraint2, if_pos (Or.inl hc0)]
    rw [if_neg hc0]
  obtain ⟨st', a', hs, -, -, -, -, hd, -⟩ := Ode.solve2_spec h.keeps r.st (hc (fun i => r.x i + dt * r.dxdt i) r.dxdt)
  obtain ⟨hb', hd'⟩ := stage h (by positivity) hs fun i hi => (hd i hi).1
  have e : (fun i => r.x i + dt * r.dxdt i) + (dt * dt) • a' = fun i => r.x i + dt * (r.dxdt i + dt * a' i) := by
    funext i
    simp
    ring
  rw [e] at hb' hd'
  unfold Ode.stepBE2 Ode.implicitSolve1
  dsimp only
  rw [hs]
  refine ⟨_, a', rfl, rfl, fun i hi => ?_, hb', hd', ?_, ?_⟩
  · dsimp only
    rw [(hd i hi).2.2, Ode.eval_mem hg _ hi]
    field_simp
    ring
  · funext i
    simp
  · funext i
    simp

end Steps

/-! ## Momentum -/

/-- `∫ ρ w·c` of a nodal vector and the resultant of the forces in direction `c`. -/
def total (B : Body d) (s : Shapes) (w : Ode.Vec B.N) (c : Fin d.n → ℝ) : ℝ := integral B s B.S.elements fun ee Q => B.S.density * ∑ i, val B s w ee.1 Q i * c i
def resultant (B : Body d) (s : Shapes) (t : ℝ) (c : Fin d.n → ℝ) : ℝ :=
  (B.forces.map fun f => integral B s f.elements fun ee Q => ∑ i, f.value t (ee.2 * B.S.E.npts + Q) i * c i).sum

/-- Translation by `c`. -/
def shift (B : Body d) (c : Fin d.n → ℝ) : Ode.Vec B.N := B.vector fun _ => c

theorem nodal_shift (c : Fin d.n → ℝ) : B.nodal (shift B c) = fun _ => c := by
  funext n i
  unfold Body.nodal shift Body.vector
  rw [Equiv.symm_apply_apply]

theorem val_shift (hu : Unity B.S s) (c : Fin d.n → ℝ) (e : ℕ) {Q : ℕ} (hQ : Q < B.S.E.npts) (i : Fin d.n) : val B s (shift B c) e Q i = c i := by
  unfold val
  rw [nodal_shift, C71.value_const hu c e hQ]

theorem grd_shift (hu : Unity B.S s) (c : Fin d.n → ℝ) (e : ℕ) {Q : ℕ} (hQ : Q < B.S.E.npts) (i j : Fin d.n) : grd B s (shift B c) e Q i j = 0 := by
  unfold grd grad
  rw [nodal_shift, C71.parGrad_const hu c e hQ]
  simp

theorem total_eq (hu : Unity B.S s) (w : Ode.Vec B.N) (c : Fin d.n → ℝ) : inertia B s w (shift B c) = total B s w c :=
  integral_congr fun ee _ Q hQ => by simp only [val_shift hu c ee.1 hQ]

theorem resultant_eq (hu : Unity B.S s) (t : ℝ) (c : Fin d.n → ℝ) : load B s t (shift B c) = resultant B s t c := by
  unfold load resultant
  congr 1
  exact List.map_congr_left fun f _ => integral_congr fun ee _ Q hQ => by simp only [val_shift hu c ee.1 hQ]

theorem total_lin (x y : ℝ) (v w : Ode.Vec B.N) (c : Fin d.n → ℝ) : total B s (x • v + y • w) c = x * total B s v c + y * total B s w c := by
  unfold total
  rw [← integral_lin]
  refine integral_congr fun ee _ Q _ => ?_
  simp only [val_lin, mul_sum, ← sum_add_distrib]
  exact sum_congr rfl fun i _ => by ring

/-- **C73, Newton's law.**  If no dof is fixed, mass times acceleration of the whole body is the resultant of the forces, whatever the material. -/
theorem C73_newton (hm : Meaning B.S s) (hn : Nondegenerate B.S s) (hf : Domains B) (hu : Unity B.S s) {t : ℝ} {x a : Ode.Vec B.N} (hb : Balanced B [] t x a)
    (hx : Defined B s x) (c : Fin d.n → ℝ) : total B s a c = resultant B s t c := by
  obtain ⟨P, hP⟩ := hx
  have h := C73_weak_form hm hn hf t x a (shift B c) P hP
  rw [sum_eq_zero fun k _ => by rw [hb k (List.not_mem_nil), zero_mul], total_eq hu, resultant_eq hu,
    integral_congr (g := fun _ _ => 0) fun ee _ Q hQ => by simp only [grd_shift hu c ee.1 hQ, mul_zero, sum_const_zero], integral_zero] at h
  linarith

/-- The impulse of a force over steps: its mean at both ends of each step, with weight `γ` for the end. -/
def impulse (γ : ℝ) (F : ℝ → ℝ) : ℝ → List ℝ → ℝ
  | _, [] => 0
  | t, dt :: dts => dt * ((1 - γ) * F t + γ * F (t + dt)) + impulse γ F (t + dt) dts

section Runs
variable {b : Ode.BCs B.N} {g : ℝ → Fin B.N → ℝ} {solve : Ode.State2 B.N → Ode.Vec B.N → Ode.Vec B.N}

/-- **C73, momentum.**  Over any number of Newmark steps of any lengths the momentum of a free body changes by the impulse of its forces. -/
theorem C73_momentum (hm : Meaning B.S s) (hn : Nondegenerate B.S s) (hf : Domains B) (hu : Unity B.S s) (h : Solves B s b solve) (hg : Ode.Prescribes b g)
    (hb : b.allDofs = []) {β : ℝ} (γ : ℝ) (hβ : 0 < β) (dts : List ℝ) (hdt : ∀ dt ∈ dts, 0 < dt) (r : Ode.Run2 B.N) (hr : Ready B s b g r) :
    ∃ r', Ode.runSteps (Ode.step2 b .direct solve β γ) dts r = some r' ∧
      ∀ c, total B s r'.dxdt c = total B s r.dxdt c + impulse γ (fun t => resultant B s t c) r.t dts := by
  induction dts generalizing r with
  | nil => exact ⟨r, rfl, fun c => by simp [impulse]⟩
  | cons dt dts ih =>
    obtain ⟨r1, a, h1, ht1, hf1, hr1, hbal, hdef, -, -, hv⟩ := newmark_step h hg γ hβ (hdt dt List.mem_cons_self) hr
    obtain ⟨r2, h2, hc2⟩ := ih (fun x hx => hdt x (List.mem_cons_of_mem _ hx)) r1 hr1
    refine ⟨r2, by rw [Ode.runSteps, h1, Option.bind_some, h2], fun c => ?_⟩
    obtain ⟨hbal1, hdef1⟩ := hr1.carried hf1
    rw [hb] at hbal hbal1
    have e0 := C73_newton hm hn hf hu hbal hdef c
    have e1 := C73_newton hm hn hf hu hbal1 hdef1 c
    rw [hc2 c, impulse, hv, ht1, show r.dxdt + dt • ((1 - γ) • a + γ • r1.d2xdt2) = (1 : ℝ) • r.dxdt + dt • ((1 - γ) • a + γ • r1.d2xdt2) by rw [one_smul],
      total_lin, total_lin, e0, e1, ht1]
    ring

/-- **C73, free flight.**  Without forces the momentum of a free body never changes and its centre of mass moves with constant speed. -/
theorem C73_free (hm : Meaning B.S s) (hn : Nondegenerate B.S s) (hf : B.forces = []) (hu : Unity B.S s) (h : Solves B s b solve) (hg : Ode.Prescribes b g)
    (hb : b.allDofs = []) {β : ℝ} (γ : ℝ) (hβ : 0 < β) (dts : List ℝ) (hdt : ∀ dt ∈ dts, 0 < dt) (r : Ode.Run2 B.N) (hr : Ready B s b g r) :
    ∃ r', Ode.runSteps (Ode.step2 b .direct solve β γ) dts r = some r' ∧
      ∀ c, total B s r'.dxdt c = total B s r.dxdt c ∧ total B s r'.x c = total B s r.x c + dts.sum * total B s r.dxdt c := by
  have hd : Domains B := fun f h => by rw [hf] at h; exact absurd h List.not_mem_nil
  have h0 : ∀ t c, resultant B s t c = 0 := fun t c => by simp [resultant, hf]
  induction dts generalizing r with
  | nil => exact ⟨r, rfl, fun c => by simp⟩
  | cons dt dts ih =>
    obtain ⟨r1, a, h1, ht1, hf1, hr1, hbal, hdef, -, hx, hv⟩ := newmark_step h hg γ hβ (hdt dt List.mem_cons_self) hr
    obtain ⟨r2, h2, hc2⟩ := ih (fun x hx => hdt x (List.mem_cons_of_mem _ hx)) r1 hr1
    refine ⟨r2, by rw [Ode.runSteps, h1, Option.bind_some, h2], fun c => ?_⟩
    obtain ⟨hbal1, hdef1⟩ := hr1.carried hf1
    rw [hb] at hbal hbal1
    have e0 := C73_newton hm hn hd hu hbal hdef c
    have e1 := C73_newton hm hn hd hu hbal1 hdef1 c
    rw [h0] at e0 e1
    have e2 : total B s r1.dxdt c = total B s r.dxdt c := by
      rw [hv, show r.dxdt + dt • ((1 - γ) • a + γ • r1.d2xdt2) = (1 : ℝ) • r.dxdt + dt • ((1 - γ) • a + γ • r1.d2xdt2) by rw [one_smul],
        total_lin, total_lin, e0, e1]
      ring
    have e3 : total B s r1.x c = total B s r.x c + dt * total B s r.dxdt c := by
      rw [hx, show r.x + dt • r.dxdt + (dt * dt) • ((1 / 2 - β) • a + β • r1.d2xdt2) =
          (1 : ℝ) • ((1 : ℝ) • r.x + dt • r.dxdt) + (dt * dt) • ((1 / 2 - β) • a + β • r1.d2xdt2) by simp only [one_smul],
        total_lin, total_lin, total_lin, e0, e1]
      ring
    rw [(hc2 c).1, (hc2 c).2, e2, e3, List.sum_cons]
    exact ⟨rfl, by ring⟩

end Runs

/-! ## Energy -/

/-- A linear elastic material: the flux is a linear function of the gradient with major symmetry. -/
structure Elastic (B : Body d) (C : ℕ → M d.n →ₗ[ℝ] M d.n) : Prop where
  flux : ∀ p H, Piola.materialFlux (ops d) B.S.on (B.S.material p) H = some (C p H)
  symm : ∀ p H H', ∑ i, ∑ j, C p H i j * H' i j = ∑ i, ∑ j, C p H' i j * H i j

/-- `∫ ∇v : C : ∇u`. -/
def strain (B : Body d) (s : Shapes) (C : ℕ → M d.n →ₗ[ℝ] M d.n) (u v : Ode.Vec B.N) : ℝ :=
  integral B s B.S.elements fun ee Q => ∑ i, ∑ j, C (ee.2 * B.S.E.npts + Q) (grd B s u ee.1 Q) i j * grd B s v ee.1 Q i j

/-- Kinetic and elastic energy. -/
def energy (B : Body d) (s : Shapes) (C : ℕ → M d.n →ₗ[ℝ] M d.n) (x v : Ode.Vec B.N) : ℝ := 1 / 2 * inertia B s v v + 1 / 2 * strain B s C x x

section Energy
variable {C : ℕ → M d.n →ₗ[ℝ] M d.n}

theorem strain_symm (hC : Elastic B C) (u v : Ode.Vec B.N) : strain B s C u v = strain B s C v u :=
  integral_congr fun _ _ _ _ => hC.symm _ _ _

theorem strain_lin (x y : ℝ) (u u' v : Ode.Vec B.N) : strain B s C (x • u + y • u') v = x * strain B s C u v + y * strain B s C u' v := by
  unfold strain
  rw [← integral_lin]
  refine integral_congr fun ee _ Q _ => ?_
  have e : grd B s (x • u + y • u') ee.1 Q = x • grd B s u ee.1 Q + y • grd B s u' ee.1 Q := by
    funext i j
    exact grd_lin x y u u' ee.1 Q i j
  rw [e]
  have e2 := ((C (ee.2 * B.S.E.npts + Q)).map_add (x • grd B s u ee.1 Q) (y • grd B s u' ee.1 Q)).trans
    (congrArg₂ (· + ·) ((C (ee.2 * B.S.E.npts + Q)).map_smul x (grd B s u ee.1 Q)) ((C (ee.2 * B.S.E.npts + Q)).map_smul y (grd B s u' ee.1 Q)))
  have e3 : ∀ i j, C (ee.2 * B.S.E.npts + Q) (x • grd B s u ee.1 Q + y • grd B s u' ee.1 Q) i j =
      x * C (ee.2 * B.S.E.npts + Q) (grd B s u ee.1 Q) i j + y * C (ee.2 * B.S.E.npts + Q) (grd B s u' ee.1 Q) i j :=
    fun i j => congrFun (congrFun e2 i) j
  simp only [mul_sum, ← sum_add_distrib]
  refine sum_congr rfl fun i _ => sum_congr rfl fun j _ => ?_
  refine (congrArg (· * grd B s v ee.1 Q i j) (e3 i j)).trans ?_
  ring

def strainForm (B : Body d) (s : Shapes) (hC : Elastic B C) : Ode.Vec B.N →ₗ[ℝ] Ode.Vec B.N →ₗ[ℝ] ℝ := toBilin (strain B s C) strain_lin (strain_symm hC)

theorem elastic_defined (hC : Elastic B C) (x : Ode.Vec B.N) :
    Stress B.S s (B.nodal x) fun ee Q => C (ee.2 * B.S.E.npts + Q) (grd B s x ee.1 Q) := fun _ _ _ _ => hC.flux _ _

/-- **C73, elastic residual.**  Tested with any vector, the residual of an elastic body is inertia plus stiffness minus forces. -/
theorem C73_elastic (hm : Meaning B.S s) (hn : Nondegenerate B.S s) (hf : Domains B) (hC : Elastic B C) (t : ℝ) (x a v : Ode.Vec B.N) :
    ∑ k, B.residual t x a k * v k = inertia B s a v + strain B s C x v - load B s t v :=
  C73_weak_form hm hn hf t x a v _ (elastic_defined hC x)

theorem balanced_tested (hm : Meaning B.S s) (hn : Nondegenerate B.S s) (hf : Domains B) (hC : Elastic B C) {fixed : List (Fin B.N)} {t : ℝ} {x a : Ode.Vec B.N}
    (hb : Balanced B fixed t x a) {v : Ode.Vec B.N} (hv : ∀ i ∈ fixed, v i = 0) : inertia B s a v + strain B s C x v = load B s t v := by
  have h := C73_elastic hm hn hf hC t x a v
  rw [sum_eq_zero fun k _ => by
    by_cases hk : k ∈ fixed
    · rw [hv k hk, mul_zero]
    · rw [hb k hk, zero_mul]] at h
  linarith

variable {b : Ode.BCs B.N} {g : ℝ → Fin B.N → ℝ} {solve : Ode.State2 B.N → Ode.Vec B.N → Ode.Vec B.N}

/-- **C73, work.**  In a Newmark step with `γ = 1/2` and resting supports the energy changes by the work of the mean of the forces at both ends, up to the change of
`½ dt² (β - ¼) ∫ ρ a·a`. -/
theorem C73_work (hm : Meaning B.S s) (hn : Nondegenerate B.S s) (hf : Domains B) (hC : Elastic B C) (h : Solves B s b solve) (hg : Ode.Prescribes b g)
    (hrest : ∀ i ∈ b.allDofs, ∀ t t', g t i = g t' i) {β dt : ℝ} (hβ : 0 < β) (hdt : 0 < dt) {r : Ode.Run2 B.N} (hr : Ready B s b g r) :
    ∃ r' a, Ode.step2 b .direct solve β (1 / 2) dt r = some r' ∧ r'.t = r.t + dt ∧ r'.first = false ∧ Ready B s b g r' ∧ (r.first = false → a = r.d2xdt2) ∧
      energy B s C r'.x r'.dxdt + 1 / 2 * (dt * dt) * (β - 1 / 4) * inertia B s r'.d2xdt2 r'.d2xdt2 =
        energy B s C r.x r.dxdt + 1 / 2 * (dt * dt) * (β - 1 / 4) * inertia B s a a + 1 / 2 * (load B s r.t (r'.x - r.x) + load B s r'.t (r'.x - r.x)) := by
  obtain ⟨r', a, h1, ht1, hf1, hr1, hbal, -, hcar, hx, hv⟩ := newmark_step h hg (1 / 2) hβ hdt hr
  refine ⟨r', a, h1, ht1, hf1, hr1, hcar, ?_⟩
  have hδ : ∀ i ∈ b.allDofs, (r'.x - r.x) i = 0 := fun i hi => by
    rw [Pi.sub_apply, hr1.fixed i hi, hr.fixed i hi, hrest i hi r'.t r.t, sub_self]
  have e0 := balanced_tested hm hn hf hC hbal hδ
  have e1 := balanced_tested hm hn hf hC (hr1.carried hf1).1 hδ
  rw [show (1 : ℝ) - 1 / 2 = 1 / 2 by norm_num] at hv
  exact newmark_energy (massForm B s) (strainForm B s hC) inertia_symm (strain_symm hC) (loadForm B s r.t) (loadForm B s r'.t) β dt r.x r.dxdt a r'.x r'.dxdt
    r'.d2xdt2 hx hv e0 e1

/-- **C73, energy.**  Average acceleration (`β = ¼`, `γ = ½`, the default): an elastic body with resting supports and constant forces keeps the sum of kinetic, elastic
and potential energy exactly, for any number of steps of any lengths. -/
theorem C73_energy (hm : Meaning B.S s) (hn : Nondegenerate B.S s) (hf : Domains B) (hC : Elastic B C) (h : Solves B s b solve) (hg : Ode.Prescribes b g)
    (hrest : ∀ i ∈ b.allDofs, ∀ t t', g t i = g t' i) (hconst : ∀ f ∈ B.forces, ∀ t t' p, f.value t p = f.value t' p) (dts : List ℝ) (hdt : ∀ dt ∈ dts, 0 < dt)
    (r : Ode.Run2 B.N) (hr : Ready B s b g r) :
    ∃ r', Ode.runSteps (Ode.step2 b .direct solve (1 / 4) (1 / 2)) dts r = some r' ∧
      energy B s C r'.x r'.dxdt - load B s 0 r'.x = energy B s C r.x r.dxdt - load B s 0 r.x := by
  have hl : ∀ t v, load B s t v = loadForm B s 0 v := by
    intro t v
    change load B s t v = load B s 0 v
    unfold load
    congr 1
    exact List.map_congr_left fun f hf => integral_congr fun ee _ Q _ => by rw [hconst f hf t 0]
  induction dts generalizing r with
  | nil => exact ⟨r, rfl, rfl⟩
  | cons dt dts ih =>
    obtain ⟨r1, a, h1, -, -, hr1, -, hE⟩ := C73_work hm hn hf hC h hg hrest (by norm_num : (0 : ℝ) < 1 / 4) (hdt dt List.mem_cons_self) hr
    obtain ⟨r2, h2, hE2⟩ := ih (fun x hx => hdt x (List.mem_cons_of_mem _ hx)) r1 hr1
    refine ⟨r2, by rw [Ode.runSteps, h1, Option.bind_some, h2], hE2.trans ?_⟩
    rw [hl, hl, map_sub] at hE
    rw [hl, hl]
    linarith

/-- **C73, energy of the other members of the family.**  For `γ = ½` and any `β > 0` a run with steps of equal lengths keeps the energy plus
`½ dt² (β - ¼) ∫ ρ a·a`. -/
theorem C73_energy_family (hm : Meaning B.S s) (hn : Nondegenerate B.S s) (hf : Domains B) (hC : Elastic B C) (h : Solves B s b solve) (hg : Ode.Prescribes b g)
    (hrest : ∀ i ∈ b.allDofs, ∀ t t', g t i = g t' i) (hconst : ∀ f ∈ B.forces, ∀ t t' p, f.value t p = f.value t' p) {β dt : ℝ} (hβ : 0 < β) (hdt : 0 < dt) (n : ℕ)
    (r : Ode.Run2 B.N) (hr : Ready B s b g r) (hfirst : r.first = false) :
    ∃ r', Ode.runSteps (Ode.step2 b .direct solve β (1 / 2)) (List.replicate n dt) r = some r' ∧
      energy B s C r'.x r'.dxdt - load B s 0 r'.x + 1 / 2 * (dt * dt) * (β - 1 / 4) * inertia B s r'.d2xdt2 r'.d2xdt2 =
        energy B s C r.x r.dxdt - load B s 0 r.x + 1 / 2 * (dt * dt) * (β - 1 / 4) * inertia B s r.d2xdt2 r.d2xdt2 := by
  have hl : ∀ t v, load B s t v = loadForm B s 0 v := by
    intro t v
    change load B s t v = load B s 0 v
    unfold load
    congr 1
    exact List.map_congr_left fun f hf => integral_congr fun ee _ Q _ => by rw [hconst f hf t 0]
  induction n generalizing r with
  | zero => exact ⟨r, rfl, rfl⟩
  | succ n ih =>
    obtain ⟨r1, a, h1, -, hf1, hr1, hcar, hE⟩ := C73_work hm hn hf hC h hg hrest hβ hdt hr
    obtain ⟨r2, h2, hE2⟩ := ih r1 hr1 hf1
    refine ⟨r2, by rw [List.replicate_succ, Ode.runSteps, h1, Option.bind_some, h2], hE2.trans ?_⟩
    rw [hcar hfirst] at hE
    rw [hl, hl, map_sub] at hE
    rw [hl, hl]
    linarith

/-- **C73, backward Euler.**  A step loses exactly the squares of the increments of velocity and displacement. -/
theorem C73_euler (hm : Meaning B.S s) (hn : Nondegenerate B.S s) (hf : Domains B) (hC : Elastic B C) (h : Solves B s b solve) (hg : Ode.Prescribes b g)
    (hrest : ∀ i ∈ b.allDofs, ∀ t t', g t i = g t' i) {dt : ℝ} (hdt : 0 < dt) (r : Ode.Run2 B.N) (hr : ∀ i ∈ b.allDofs, r.x i = g r.t i) :
    ∃ r', Ode.stepBE2 b .direct solve dt r = some r' ∧ r'.t = r.t + dt ∧ (∀ i ∈ b.allDofs, r'.x i = g r'.t i) ∧
      energy B s C r'.x r'.dxdt + energy B s C (r'.x - r.x) (r'.dxdt - r.dxdt) = energy B s C r.x r.dxdt + load B s r'.t (r'.x - r.x) := by
  obtain ⟨r', a', h1, ht1, hr1, hbal, -, hx, hv⟩ := euler_step h hg hdt r
  refine ⟨r', h1, ht1, hr1, ?_⟩
  have hδ : ∀ i ∈ b.allDofs, (r'.x - r.x) i = 0 := fun i hi => by
    rw [Pi.sub_apply, hr1 i hi, hr i hi, hrest i hi r'.t r.t, sub_self]
  have e1 := balanced_tested hm hn hf hC hbal hδ
  have := euler_energy (massForm B s) (strainForm B s hC) inertia_symm (strain_symm hC) (loadForm B s r'.t) dt r.x r.dxdt r'.x r'.dxdt a' hx hv e1
  change 1 / 2 * inertia B s r'.dxdt r'.dxdt + 1 / 2 * strain B s C r'.x r'.x + 1 / 2 * inertia B s (r'.dxdt - r.dxdt) (r'.dxdt - r.dxdt) +
    1 / 2 * strain B s C (r'.x - r.x) (r'.x - r.x) = 1 / 2 * inertia B s r.dxdt r.dxdt + 1 / 2 * strain B s C r.x r.x + load B s r'.t (r'.x - r.x) at this
  unfold energy
  linarith

/-- Weights times volumes are not negative. -/
def Volumes (B : Body d) (s : Shapes) : Prop := ∀ e ∈ B.S.elements, ∀ Q < B.S.E.npts, 0 ≤ s.wt Q * (C71.jac B.S s e Q).det

theorem integral_nonneg (hv : Volumes B s) {f : ℕ × ℕ → ℕ → ℝ} (hf : ∀ ee ∈ B.S.elements.zipIdx, ∀ Q < B.S.E.npts, 0 ≤ f ee Q) :
    0 ≤ integral B s B.S.elements f := by
  refine List.sum_nonneg fun x hx => ?_
  obtain ⟨ee, hee, rfl⟩ := List.mem_map.1 hx
  refine sum_nonneg fun Q hQ => ?_
  rw [← mul_assoc]
  exact mul_nonneg (hv ee.1 (mem_zipIdx_fst hee) Q (mem_range.1 hQ)) (hf ee hee Q (mem_range.1 hQ))

theorem inertia_nonneg (hv : Volumes B s) (hρ : 0 ≤ B.S.density) (v : Ode.Vec B.N) : 0 ≤ inertia B s v v :=
  integral_nonneg hv fun _ _ _ _ => mul_nonneg hρ (sum_nonneg fun _ _ => mul_self_nonneg _)

theorem strain_nonneg (hv : Volumes B s) (hpos : ∀ p H, 0 ≤ ∑ i, ∑ j, C p H i j * H i j) (v : Ode.Vec B.N) : 0 ≤ strain B s C v v :=
  integral_nonneg hv fun _ _ _ _ => hpos _ _

/-- **C73, backward Euler never gains energy** under constant forces, over any run. -/
theorem C73_euler_run (hm : Meaning B.S s) (hn : Nondegenerate B.S s) (hf : Domains B) (hC : Elastic B C) (h : Solves B s b solve) (hg : Ode.Prescribes b g)
    (hrest : ∀ i ∈ b.allDofs, ∀ t t', g t i = g t' i) (hconst : ∀ f ∈ B.forces, ∀ t t' p, f.value t p = f.value t' p) (hv : Volumes B s) (hρ : 0 ≤ B.S.density)
    (hpos : ∀ p H, 0 ≤ ∑ i, ∑ j, C p H i j * H i j) (dts : List ℝ) (hdt : ∀ dt ∈ dts, 0 < dt) (r : Ode.Run2 B.N) (hr : ∀ i ∈ b.allDofs, r.x i = g r.t i) :
    ∃ r', Ode.runSteps (Ode.stepBE2 b .direct solve) dts r = some r' ∧
      energy B s C r'.x r'.dxdt - load B s 0 r'.x ≤ energy B s C r.x r.dxdt - load B s 0 r.x := by
  have hl : ∀ t v, load B s t v = loadForm B s 0 v := by
    intro t v
    change load B s t v = load B s 0 v
    unfold load
    congr 1
    exact List.map_congr_left fun f hf => integral_congr fun ee _ Q _ => by rw [hconst f hf t 0]
  induction dts generalizing r with
  | nil => exact ⟨r, rfl, le_rfl⟩
  | cons dt dts ih =>
    obtain ⟨r1, h1, -, hr1, hE⟩ := C73_euler hm hn hf hC h hg hrest (hdt dt List.mem_cons_self) r hr
    obtain ⟨r2, h2, hE2⟩ := ih (fun x hx => hdt x (List.mem_cons_of_mem _ hx)) r1 hr1
    refine ⟨r2, by rw [Ode.runSteps, h1, Option.bind_some, h2], hE2.trans ?_⟩
    have h3 : 0 ≤ energy B s C (r1.x - r.x) (r1.dxdt - r.dxdt) := by
      unfold energy
      have := inertia_nonneg hv hρ (r1.dxdt - r.dxdt)
      have := strain_nonneg hv hpos (r1.x - r.x)
      linarith
    rw [hl, map_sub] at hE
    rw [hl, hl]
    linarith

/-- **C73, stability.**  For `β ≥ ¼` the kinetic and elastic energy of an unloaded run with equal steps stay below a bound fixed at its start. -/
theorem C73_stability (hm : Meaning B.S s) (hn : Nondegenerate B.S s) (hf : B.forces = []) (hC : Elastic B C) (h : Solves B s b solve) (hg : Ode.Prescribes b g)
    (hrest : ∀ i ∈ b.allDofs, ∀ t t', g t i = g t' i) (hv : Volumes B s) (hρ : 0 ≤ B.S.density) {β dt : ℝ} (hβ : 1 / 4 ≤ β) (hdt : 0 < dt) (n : ℕ)
    (r : Ode.Run2 B.N) (hr : Ready B s b g r) (hfirst : r.first = false) :
    ∃ r', Ode.runSteps (Ode.step2 b .direct solve β (1 / 2)) (List.replicate n dt) r = some r' ∧
      energy B s C r'.x r'.dxdt ≤ energy B s C r.x r.dxdt + 1 / 2 * (dt * dt) * (β - 1 / 4) * inertia B s r.d2xdt2 r.d2xdt2 := by
  obtain ⟨r', h1, hE⟩ := C73_energy_family hm hn (fun f h => by rw [hf] at h; exact absurd h List.not_mem_nil) hC h hg hrest
    (fun f h => by rw [hf] at h; exact absurd h List.not_mem_nil) (by linarith : 0 < β) hdt n r hr hfirst
  refine ⟨r', h1, ?_⟩
  have hl : ∀ v, load B s 0 v = 0 := fun v => by simp [load, hf]
  rw [hl, hl] at hE
  have := mul_nonneg (mul_nonneg (by positivity : 0 ≤ 1 / 2 * (dt * dt)) (sub_nonneg.2 hβ)) (inertia_nonneg (s := s) hv hρ r'.d2xdt2)
  linarith

/-- **C73, existence.**  If velocities without kinetic energy vanish and the material does not release energy, every stage can be solved, for every choice of
fixed dofs. -/
theorem C73_solvable (hm : Meaning B.S s) (hn : Nondegenerate B.S s) (hf : Domains B) (hC : Elastic B C) (hv : Volumes B s) (hρ : 0 ≤ B.S.density)
    (hpos : ∀ p H, 0 ≤ ∑ i, ∑ j, C p H i j * H i j) (hdef : ∀ v : Ode.Vec B.N, inertia B s v v = 0 → v = 0) (b : Ode.BCs B.N) :
    ∃ solve, Solves B s b solve := by
  have hentry : ∀ t x a k, B.residual t x a k = massForm B s a (Pi.single k 1) + strainForm B s hC x (Pi.single k 1) - loadForm B s t (Pi.single k 1) := by
    intro t x a k
    have := C73_elastic hm hn hf hC t x a (Pi.single k 1)
    have e : ∑ j, B.residual t x a j * (Pi.single k 1 : Ode.Vec B.N) j = B.residual t x a k := by simp [Pi.single_apply]
    exact e.symm.trans this
  suffices h : ∀ (st : Ode.State2 B.N) (guess : Ode.Vec B.N), ∃ a : Ode.Vec B.N, (0 ≤ st.c0 → B.accResidual b.allDofs st a = 0) ∧ ∀ i ∈ b.allDofs, a i = guess i from
    ⟨fun st v => (h st v).choose, fun st v i hi => (h st v).choose_spec.2 i hi, fun st v hc => (h st v).choose_spec.1 hc, fun st v _ => ⟨_, elastic_defined hC _⟩⟩
  intro st guess
  by_cases hc : 0 ≤ st.c0
  swap
  · exact ⟨guess, fun h => absurd h hc, fun _ _ => rfl⟩
  let A : Ode.Vec B.N →ₗ[ℝ] Ode.Vec B.N →ₗ[ℝ] ℝ := massForm B s + st.c0 • strainForm B s hC
  let L : Ode.Vec B.N →ₗ[ℝ] Ode.Vec B.N :=
    { toFun := fun a k => if k ∈ b.allDofs then a k else A a (Pi.single k 1)
      map_add' := fun a a' => by
        funext k
        simp only [Pi.add_apply, map_add, LinearMap.add_apply]
        split_ifs <;> rfl
      map_smul' := fun c a => by
        funext k
        simp only [Pi.smul_apply, map_smul, LinearMap.smul_apply, RingHom.id_apply]
        split_ifs <;> rfl }
  have hdot : ∀ a v : Ode.Vec B.N, A a v = ∑ k, A a (Pi.single k 1) * v k := by
    intro a v
    conv_lhs => rw [← Finset.univ_sum_single v]
    rw [map_sum]
    refine sum_congr rfl fun k _ => ?_
    rw [show (Pi.single k (v k) : Ode.Vec B.N) = v k • Pi.single k 1 by rw [← Pi.single_smul, smul_eq_mul, mul_one], map_smul, smul_eq_mul, mul_comm]
  have hinj : Function.Injective L := by
    refine (injective_iff_map_eq_zero L).2 fun a ha => hdef a ?_
    have h0 : A a a = 0 := by
      rw [hdot]
      refine sum_eq_zero fun k _ => ?_
      have hk : (if k ∈ b.allDofs then a k else A a (Pi.single k 1)) = 0 := congrFun ha k
      split_ifs at hk
      · rw [hk, mul_zero]
      · rw [hk, zero_mul]
    have h1 : inertia B s a a + st.c0 * strain B s C a a = 0 := h0
    have := inertia_nonneg (s := s) hv hρ a
    have := mul_nonneg hc (strain_nonneg (s := s) hv hpos a)
    linarith
  obtain ⟨a, ha⟩ := LinearMap.injective_iff_surjective.1 hinj fun k => if k ∈ b.allDofs then guess k else
    loadForm B s st.time (Pi.single k 1) - strainForm B s hC st.u (Pi.single k 1)
  have hk : ∀ k, (if k ∈ b.allDofs then a k else A a (Pi.single k 1)) = if k ∈ b.allDofs then guess k else
    loadForm B s st.time (Pi.single k 1) - strainForm B s hC st.u (Pi.single k 1) := fun k => congrFun ha k
  refine ⟨a, fun _ => ?_, fun i hi => ?_⟩
  · funext k
    unfold Body.accResidual
    split_ifs with h
    · rfl
    · have := hk k
      rw [if_neg h, if_neg h] at this
      rw [hentry, show (fun m => 1 * st.u m + st.c0 * a m) = st.u + st.c0 • a by funext m; simp, map_add, map_smul]
      change massForm B s a (Pi.single k 1) + st.c0 * strainForm B s hC a (Pi.single k 1) = _ at this
      change massForm B s a (Pi.single k 1) + (strainForm B s hC st.u (Pi.single k 1) + st.c0 * strainForm B s hC a (Pi.single k 1)) - _ = 0
      linarith
  · have := hk i
    rw [if_pos hi, if_pos hi] at this
    exact this

end Energy

/-! ## The linear isotropic material -/

/-- `LinearIsotropic` as a linear map. -/
def isotropic (n : ℕ) (K G : ℝ) : M n →ₗ[ℝ] M n where
  toFun H := Mat.linearIsotropic K G H
  map_add' H H' := by
    refine (C31.linearIsotropic_eq K G (H + H')).trans ?_
    rw [show (Mat.linearIsotropic K G H : M n) = _ from C31.linearIsotropic_eq K G H, show (Mat.linearIsotropic K G H' : M n) = _ from C31.linearIsotropic_eq K G H']
    unfold C31.linear
    rw [Matrix.trace_add, Matrix.transpose_add]
    module
  map_smul' c H := by
    refine (C31.linearIsotropic_eq K G (c • H)).trans ?_
    rw [show (Mat.linearIsotropic K G H : M n) = _ from C31.linearIsotropic_eq K G H]
    unfold C31.linear
    rw [Matrix.trace_smul, Matrix.transpose_smul, RingHom.id_apply, smul_eq_mul]
    module

theorem isotropic_dot (n : ℕ) (K G : ℝ) (H H' : M n) : ∑ i, ∑ j, isotropic n K G H i j * H' i j =
    (K - 2 / 3 * G) * H.trace * H'.trace + G * ∑ i, ∑ j, (H i j + H j i) * H' i j := by
  have e : ∀ i j, isotropic n K G H i j = (K - 2 / 3 * G) * H.trace * (if i = j then 1 else 0) + G * (H i j + H j i) := by
    intro i j
    have := congrFun (congrFun (C31.linearIsotropic_eq K G H) i) j
    refine this.trans ?_
    simp [C31.linear, Matrix.one_apply]
    ring
  have e2 : ∀ i j, isotropic n K G H i j * H' i j = (K - 2 / 3 * G) * H.trace * (if i = j then 1 else 0) * H' i j + G * ((H i j + H j i) * H' i j) :=
    fun i j => by rw [e]; ring
  simp only [e2, sum_add_distrib]
  congr 1
  · simp [Matrix.trace, mul_sum, sum_mul]
  · simp only [mul_sum]

/-- **C73, linear isotropic material.**  With the switch off it is elastic in the sense above, and it stores energy if its moduli are not negative. -/
theorem C73_isotropic (K G : ℝ) (hoff : B.S.on = false) (hmat : ∀ p, B.S.material p = fun H => some (Mat.linearIsotropic K G H)) :
    Elastic B (fun _ => isotropic d.n K G) ∧ (0 ≤ K → 0 ≤ G → ∀ H : M d.n, 0 ≤ ∑ i, ∑ j, isotropic d.n K G H i j * H i j) := by
  refine ⟨⟨fun p H => ?_, fun _ H H' => ?_⟩, fun hK hG H => ?_⟩
  · rw [hmat, hoff]
    exact C33.C33_flux_off (C71.ops_exact d) _ _
  · rw [isotropic_dot, isotropic_dot]
    have : ∑ i, ∑ j, (H i j + H j i) * H' i j = ∑ i, ∑ j, (H' i j + H' j i) * H i j := by
      simp only [add_mul, sum_add_distrib]
      congr 1
      · exact sum_congr rfl fun i _ => sum_congr rfl fun j _ => mul_comm _ _
      · rw [sum_comm]
        exact sum_congr rfl fun i _ => sum_congr rfl fun j _ => mul_comm _ _
    rw [this]
    ring
  · rw [isotropic_dot]
    cases d
    · simp only [Matrix.trace, Matrix.diag, Fin.sum_univ_two, Dim.n]
      nlinarith [mul_nonneg hK (sq_nonneg (H 0 0 + H 1 1)), mul_nonneg hG (sq_nonneg (H 0 0 - H 1 1)), mul_nonneg hG (sq_nonneg (H 0 0 + H 1 1)),
        mul_nonneg hG (sq_nonneg (H 0 1 + H 1 0))]
    · simp only [Matrix.trace, Matrix.diag, Fin.sum_univ_three, Dim.n]
      nlinarith [mul_nonneg hK (sq_nonneg (H 0 0 + H 1 1 + H 2 2)), mul_nonneg hG (sq_nonneg (H 0 0 - H 1 1)), mul_nonneg hG (sq_nonneg (H 0 0 - H 2 2)),
        mul_nonneg hG (sq_nonneg (H 1 1 - H 2 2)), mul_nonneg hG (sq_nonneg (H 0 1 + H 1 0)), mul_nonneg hG (sq_nonneg (H 0 2 + H 2 0)),
        mul_nonneg hG (sq_nonneg (H 1 2 + H 2 1))]

/-! ## Example: a square of four different triangles, clamped at two corners, under gravity -/

def exMesh : Setup .two where
  E := simplex C72.tri3
  G := simplex C72.tri3
  nn := 5
  ng := 5
  conn := C71.exConn
  connG := C71.exConn
  pos := C71.exPos
  ne := 4
  elements := [0, 1, 2, 3]
  on := false
  density := 3
  material := fun _ H => some (Mat.linearIsotropic 2 1 H)

def exGravity : Force .two := ⟨[0, 1, 2, 3], fun _ _ => ![0, -9.81]⟩
def exPush : Force .two := ⟨[1, 3], fun t _ => ![t, 1]⟩

def exBody (forces : List (Force .two)) : Body .two where
  S := exMesh
  forces := forces
  N := 10
  num := (finProdFinEquiv : Fin 5 × Fin 2 ≃ Fin (5 * 2))

variable (forces : List (Force .two))

theorem ex_meaning : Meaning (exBody forces).S C72.exShapes :=
  ⟨(C51.C51_simplex C72.tri3).1, (C51.C51_simplex C72.tri3).2, (C51.C51_simplex C72.tri3).1, rfl, by simp [exBody, exMesh]⟩

theorem ex_unity : Unity (exBody forces).S C72.exShapes := C72.ex_unity []

theorem ex_volumes : Volumes (exBody forces) C72.exShapes := C72.ex_volumes []

theorem ex_nondegenerate : Nondegenerate (exBody forces).S C72.exShapes := fun e he Q hQ =>
  (C72.ex_det [] (show e = 0 ∨ e = 1 ∨ e = 2 ∨ e = 3 by simpa [exBody, exMesh] using he) hQ).ne'

theorem ex_domains (h : ∀ f ∈ forces, f = exGravity ∨ f = exPush) : Domains (exBody forces) := by
  intro f hf e he
  change e < 4
  rcases h f hf with rfl | rfl
  · have : e = 0 ∨ e = 1 ∨ e = 2 ∨ e = 3 := by simpa [exGravity] using he
    omega
  · have : e = 1 ∨ e = 3 := by simpa [exPush] using he
    omega

theorem ex_definite (v : Ode.Vec (exBody forces).N) (h : inertia (exBody forces) C72.exShapes v v = 0) : v = 0 := by
  have hc : C72.exMaterial.capacity = 3 := by
    have h := ((C49.C49_isotropic 2 1 3 2).2 _ C72.ex_material).1
    rw [h]
    norm_num
  let x : Fin 2 → Fin 5 → ℝ := fun i n => (exBody forces).nodal v n i
  have hx : ∀ i : Fin 2, C72.square (C72.exHeat []) C72.exShapes (x i) =
      integral (exBody forces) C72.exShapes (exBody forces).S.elements fun ee Q => 3 * val (exBody forces) C72.exShapes v ee.1 Q i ^ 2 := by
    intro i
    refine C72.integral_congr (S := C72.exHeat []) fun ee _ Q _ => ?_
    rw [← hc]
    rfl
  have hsum : inertia (exBody forces) C72.exShapes v v = C72.square (C72.exHeat []) C72.exShapes (x 0) + C72.square (C72.exHeat []) C72.exShapes (x 1) := by
    rw [hx, hx]
    have := integral_lin (B := exBody forces) (s := C72.exShapes) (exBody forces).S.elements 1 1
      (fun ee Q => 3 * val (exBody forces) C72.exShapes v ee.1 Q (0 : Fin 2) ^ 2) fun ee Q => 3 * val (exBody forces) C72.exShapes v ee.1 Q (1 : Fin 2) ^ 2
    rw [one_mul, one_mul] at this
    rw [← this]
    refine integral_congr fun ee _ Q _ => ?_
    change (3 : ℝ) * ∑ i : Fin 2, val (exBody forces) C72.exShapes v ee.1 Q i * val (exBody forces) C72.exShapes v ee.1 Q i = _
    rw [Fin.sum_univ_two]
    ring
  have hn : ∀ i : Fin 2, 0 ≤ C72.square (C72.exHeat []) C72.exShapes (x i) := fun i =>
    C72.integral_nonneg (C72.ex_volumes []) fun ee _ Q _ => mul_nonneg (by change 0 ≤ C72.exMaterial.capacity; rw [hc]; norm_num) (sq_nonneg _)
  have h0 : ∀ i : Fin 2, x i = 0 := by
    intro i
    refine C72.ex_definite [] (x i) ?_
    have := hn 0
    have := hn 1
    fin_cases i
    · change C72.square (C72.exHeat []) C72.exShapes (x 0) = 0
      linarith
    · change C72.square (C72.exHeat []) C72.exShapes (x 1) = 0
      linarith
  funext k
  have := congrFun (h0 ((finProdFinEquiv : Fin 5 × Fin 2 ≃ Fin (5 * 2)).symm k).2) ((finProdFinEquiv : Fin 5 × Fin 2 ≃ Fin (5 * 2)).symm k).1
  have e : x ((finProdFinEquiv : Fin 5 × Fin 2 ≃ Fin (5 * 2)).symm k).2 ((finProdFinEquiv : Fin 5 × Fin 2 ≃ Fin (5 * 2)).symm k).1 = v k := by
    change v ((finProdFinEquiv : Fin 5 × Fin 2 ≃ Fin (5 * 2)) (((finProdFinEquiv : Fin 5 × Fin 2 ≃ Fin (5 * 2)).symm k).1, ((finProdFinEquiv : Fin 5 × Fin 2 ≃ Fin (5 * 2)).symm k).2)) = v k
    congr 1
    exact (finProdFinEquiv : Fin 5 × Fin 2 ≃ Fin (5 * 2)).apply_symm_apply k
  rw [← e]
  exact this

theorem ex_elastic : Elastic (exBody forces) (fun _ => isotropic 2 2 1) ∧ ∀ H : M 2, 0 ≤ ∑ i, ∑ j, isotropic 2 2 1 H i j * H i j :=
  ⟨(C73_isotropic (B := exBody forces) 2 1 rfl fun _ => rfl).1, (C73_isotropic (B := exBody forces) 2 1 rfl fun _ => rfl).2 (by norm_num) (by norm_num)⟩

/-- Both components of the first two nodes are held. -/
def exClamp : Ode.BCs 10 := ⟨[⟨[0, 1, 2, 3], fun _ _ => 0⟩], [0, 1, 2, 3]⟩

theorem ex_clamp : Ode.Prescribes exClamp fun _ _ => 0 := by
  refine ⟨?_, ?_⟩
  · intro bc hbc i hi t
    rw [List.mem_singleton.1 (show bc ∈ [_] from hbc)]
  · simp [exClamp]

/-- The clamped square falls under gravity: every stage is solvable, and it keeps its energy over any run from rest. -/
example : ∃ solve, Solves (exBody [exGravity]) C72.exShapes exClamp solve ∧ ∀ (dts : List ℝ), (∀ dt ∈ dts, 0 < dt) → ∀ st,
    ∃ r', Ode.runSteps (Ode.step2 exClamp .direct solve (1 / 4) (1 / 2)) dts ⟨st, 0, 0, 0, true, 0⟩ = some r' ∧
      energy (exBody [exGravity]) C72.exShapes (fun _ => isotropic 2 2 1) r'.x r'.dxdt = load (exBody [exGravity]) C72.exShapes 0 r'.x := by
  have hd := ex_domains [exGravity] (by simp)
  obtain ⟨hC, hpos⟩ := ex_elastic [exGravity]
  obtain ⟨solve, hs⟩ := C73_solvable (ex_meaning [exGravity]) (ex_nondegenerate _) hd hC (ex_volumes _) (by simp [exBody, exMesh]) (fun _ => hpos) (ex_definite _) exClamp
  refine ⟨solve, hs, fun dts hdt st => ?_⟩
  obtain ⟨r', h1, h2⟩ := C73_energy (B := exBody [exGravity]) (ex_meaning _) (ex_nondegenerate _) hd hC hs ex_clamp (fun _ _ _ _ => rfl)
    (by simp [exBody, exGravity]) dts hdt ⟨st, 0, 0, 0, true, 0⟩ ⟨fun _ _ => rfl, fun h => Bool.noConfusion h⟩
  refine ⟨r', h1, ?_⟩
  have e1 : energy (exBody [exGravity]) C72.exShapes (fun _ => isotropic 2 2 1) 0 0 = 0 := by
    have a1 := inertia_lin (B := exBody [exGravity]) (s := C72.exShapes) 0 0 0 0 0
    have a2 := strain_lin (B := exBody [exGravity]) (s := C72.exShapes) (C := fun _ => isotropic 2 2 1) 0 0 0 0 0
    simp only [smul_zero, add_zero, zero_mul] at a1 a2
    unfold energy
    rw [a1, a2]
    norm_num
  have e2 : load (exBody [exGravity]) C72.exShapes 0 0 = 0 := by
    have := load_lin (B := exBody [exGravity]) (s := C72.exShapes) 0 0 0 0 0
    simpa only [smul_zero, add_zero, zero_mul] using this
  have h3 : energy (exBody [exGravity]) C72.exShapes (fun _ => isotropic 2 2 1) r'.x r'.dxdt - load (exBody [exGravity]) C72.exShapes 0 r'.x =
      energy (exBody [exGravity]) C72.exShapes (fun _ => isotropic 2 2 1) 0 0 - load (exBody [exGravity]) C72.exShapes 0 0 := h2
  rw [e1, e2] at h3
  linarith

/-- Free, pushed by a force that grows with time on two of its triangles: the momentum follows. -/
example : ∃ solve, Solves (exBody [exPush]) C72.exShapes ⟨[], []⟩ solve ∧ ∀ (dts : List ℝ), (∀ dt ∈ dts, 0 < dt) → ∀ (st) (x v : Ode.Vec 10),
    ∃ r', Ode.runSteps (Ode.step2 ⟨[], []⟩ .direct solve (1 / 4) (1 / 2)) dts ⟨st, x, v, 0, true, 0⟩ = some r' ∧
      ∀ c, total (exBody [exPush]) C72.exShapes r'.dxdt c = total (exBody [exPush]) C72.exShapes v c +
        impulse (1 / 2) (fun t => resultant (exBody [exPush]) C72.exShapes t c) 0 dts := by
  have hd := ex_domains [exPush] (by simp)
  obtain ⟨hC, hpos⟩ := ex_elastic [exPush]
  obtain ⟨solve, hs⟩ := C73_solvable (ex_meaning [exPush]) (ex_nondegenerate _) hd hC (ex_volumes _) (by simp [exBody, exMesh]) (fun _ => hpos) (ex_definite _) ⟨[], []⟩
  refine ⟨solve, hs, fun dts hdt st x v => ?_⟩
  exact C73_momentum (B := exBody [exPush]) (g := fun _ _ => 0) (ex_meaning _) (ex_nondegenerate _) hd (ex_unity _) hs ⟨by simp, by simp⟩ rfl (1 / 2) (by norm_num) dts hdt
    ⟨st, x, v, 0, true, 0⟩ ⟨by simp, fun h => Bool.noConfusion h⟩

end Serac.C73
