import Verif.Model.HeatResidual
import Verif.Props.C71
import Verif.Props.C49
import Verif.Props.C21
/-!
# C72: heat is balanced and dissipated

Spec.  The temperature at a quadrature point is `value`, its gradient `grad`, heat content is `∫ c T` with the quadrature rule of the elements (`content`).  The
assembled residual tested with any `v` is `∫ (c u̇ v - q·∇v) - ∫ s v` (`C72_weak_form`); tested with one it is the balance of heat of the body: content changes by what
the sources supply (`C72_balance`), a uniform temperature is at rest (`C72_rest`), heat flows down the gradient (`C72_dissipation`), and linear conductors are
reciprocal (`C72_reciprocity`).  A run of backward Euler steps, for any sizes, gains exactly what the sources supplied at the ends of the steps
(`C72_conservation`), never gains in `∫ c T²` without sources and with walls at zero (`C72_stability_run`), and the equation of a step has exactly one solution
(`C72_unique`, `C72_solvable`).  A temperature linear in position gives only the fluxes through the boundary edges or faces, exactly, whatever the elements
(`C72_patch_*`).
-/

noncomputable section
namespace Serac.C72
open Serac.Tensor Serac.Transform Serac.Kernels Serac.Solid Serac.Heat Finset
open Serac.C71 (M Shapes gather_at scatter_dot split list_sum_comm getD_zipIdx mem_zipIdx_fst)
open scoped Matrix

/-! ## Spec -/

variable {d : Dim} (S : Problem d) (s : Shapes)

/-- The elements mean their shape functions. -/
structure Meaning : Prop where
  trial : C51.Trial S.E s.phi s.dphi
  test : C51.Test S.E s.phi s.dphi s.wt
  geom : C51.Trial S.G s.phiG s.dphiG
  dim : S.E.dim = d.n

/-- Temperature at point `Q` of element `e`, and its derivative on the parent element. -/
def value (v : S.Nodal) (e Q : ℕ) : ℝ := ∑ a ∈ range S.E.ndof, v (S.conn e a) * s.phi Q a
def parGrad (v : S.Nodal) (e Q : ℕ) (k : Fin d.n) : ℝ := ∑ a ∈ range S.E.ndof, v (S.conn e a) * s.dphi Q a k

/-- Derivative of the position with respect to the parent coordinates. -/
def jac (e Q : ℕ) : M d.n := fun i k => ∑ b ∈ range S.G.ndof, S.pos (S.connG e b) i * s.dphiG Q b k

/-- The temperature gradient. -/
def grad (v : S.Nodal) (e Q : ℕ) (j : Fin d.n) : ℝ := ∑ l, parGrad S s v e Q l * (jac S s e Q)⁻¹ l j

/-- `∫` over a domain: the sum over its elements (`ee.1` the element, `ee.2` its place in the list) and points of weight times volume times integrand. -/
def integral (elements : List ℕ) (f : ℕ × ℕ → ℕ → ℝ) : ℝ :=
  (elements.zipIdx.map fun ee => ∑ Q ∈ range S.E.npts, s.wt Q * ((jac S s ee.1 Q).det * f ee Q)).sum

/-- The elements exist and none is degenerate. -/
def Good (elements : List ℕ) : Prop := ∀ e ∈ elements, e < S.ne ∧ ∀ Q < S.E.npts, (jac S s e Q).det ≠ 0

variable {S s}

/-! ## One integral -/

/-- A row. -/
def row {n : ℕ} (f : Vec ℝ n) : Matrix (Fin 1) (Fin n) ℝ := fun _ => f

theorem interp_eq {c : ℕ} {E : Elem ℝ} {phi dphi} (h : C51.Trial E phi dphi) {nn : ℕ} (conn : ℕ → ℕ → Fin nn) (u : Fin nn → Vec ℝ c) (e Q : ℕ) :
    Problem.interp (d := d) c E (fun t => gatherE E.ndof conn u (e * (c * E.ndof) + t)) Q =
      (fun i => ∑ a ∈ range E.ndof, u (conn e a) i * phi Q a, fun i (k : Fin d.n) => ∑ a ∈ range E.ndof, u (conn e a) i * dphi Q a k) := by
  unfold Problem.interp
  congr 1
  · funext i
    simp only [interpolate, h.value]
    exact sum_congr rfl fun a ha => by rw [gather_at conn u e i (mem_range.1 ha)]
  · funext i k
    simp only [interpolate, h.grad]
    exact sum_congr rfl fun a ha => by rw [gather_at conn u e i (mem_range.1 ha)]

theorem jacobian_eq (hm : Meaning S s) {elements : List ℕ} {ee : ℕ × ℕ} (h : ee ∈ elements.zipIdx) (Q : ℕ) :
    S.jacobian elements ee.2 Q = jac S s ee.1 Q := by
  unfold Problem.jacobian
  rw [getD_zipIdx h, interp_eq hm.geom]
  rfl

theorem point_eq {qf : ℝ → Vec ℝ d.n → ℝ → Option (ℝ × Vec ℝ d.n)} {J : M d.n} (hJ : J.det ≠ 0) (u a : Vec ℝ 1 × Matrix (Fin 1) (Fin d.n) ℝ) :
    heatPoint d qf J u a = (qf (u.1 0) ((u.2 * J⁻¹) 0) (a.1 0)).map fun r =>
      (fun _ => J.det * r.1, J.det • (row (r.2) * Jᵀ⁻¹)) := by
  have hJT : (Jᵀ).det ≠ 0 := by rwa [Matrix.det_transpose]
  unfold heatPoint parentToPhysicalH1 physicalToParentH1
  simp only [loadJ_store, loadJT_store]
  rw [Transform.inv_eq d J hJ, Transform.inv_eq d Jᵀ hJT]
  simp only [Option.map_some, Option.bind_some, Tensor.dot_eq]
  cases qf (u.1 0) ((u.2 * J⁻¹) 0) (a.1 0) with
  | none => rfl
  | some r =>
    simp only [Option.map_some, Option.bind_some, smulM_eq, smulV_eq, Transform.det_eq, Matrix.det_transpose]
    rw [show Tensor.dot (fun _ : Fin 1 => r.2) Jᵀ⁻¹ = row r.2 * Jᵀ⁻¹ from Tensor.dot_eq (row r.2) _]
    rfl

/-- The result of a q-function at every point of a domain. -/
def Result (S : Problem d) (s : Shapes) (elements : List ℕ) (qf : ℕ → ℝ → Vec ℝ d.n → ℝ → Option (ℝ × Vec ℝ d.n)) (u a : S.Nodal)
    (r : ℕ × ℕ → ℕ → ℝ × Vec ℝ d.n) : Prop := ∀ ee ∈ elements.zipIdx, ∀ Q < S.E.npts,
  qf (ee.2 * S.E.npts + Q) (value S s u ee.1 Q) (grad S s u ee.1 Q) (value S s a ee.1 Q) = some (r ee Q)

theorem outcome (hm : Meaning S s) {elements : List ℕ} (hg : Good S s elements) {qf : ℕ → ℝ → Vec ℝ d.n → ℝ → Option (ℝ × Vec ℝ d.n)} {u a : S.Nodal}
    {r : ℕ × ℕ → ℕ → ℝ × Vec ℝ d.n} (hr : Result S s elements qf u a r) {ee : ℕ × ℕ} (h : ee ∈ elements.zipIdx) {Q : ℕ} (hQ : Q < S.E.npts) :
    S.pointFn elements qf a (ee.2 * S.E.npts + Q)
        ((interpolate S.E fun p => gatherE S.E.ndof S.conn (S.field u) (ee.1 * (1 * S.E.ndof) + p)).value Q)
        ((interpolate S.E fun p => gatherE S.E.ndof S.conn (S.field u) (ee.1 * (1 * S.E.ndof) + p)).grad Q) =
      (flatV (fun _ : Fin 1 => (jac S s ee.1 Q).det * (r ee Q).1),
        flatM ((jac S s ee.1 Q).det • (row ((r ee Q).2) * (jac S s ee.1 Q)ᵀ⁻¹))) := by
  have h1 : (ee.2 * S.E.npts + Q) / S.E.npts = ee.2 := by
    rw [Nat.mul_comm, Nat.mul_add_div (by omega), Nat.div_eq_of_lt hQ, Nat.add_zero]
  have h2 : (ee.2 * S.E.npts + Q) % S.E.npts = Q := by
    rw [Nat.mul_comm, Nat.mul_add_mod, Nat.mod_eq_of_lt hQ]
  unfold Problem.pointFn
  dsimp only
  rw [h1, h2, jacobian_eq hm h, point_eq ((hg ee.1 (mem_zipIdx_fst h)).2 Q hQ), getD_zipIdx h, interp_eq hm.trial]
  have h0 : ((fun i => (interpolate S.E fun p => gatherE S.E.ndof S.conn (S.field u) (ee.1 * (1 * S.E.ndof) + p)).value Q (i : ℕ)) : Vec ℝ 1) =
      fun _ => value S s u ee.1 Q := congrArg Prod.fst (interp_eq (d := d) hm.trial S.conn (S.field u) ee.1 Q)
  have h3 : ((fun i j => (interpolate S.E fun p => gatherE S.E.ndof S.conn (S.field u) (ee.1 * (1 * S.E.ndof) + p)).grad Q (i : ℕ) (j : ℕ)) :
      Matrix (Fin 1) (Fin d.n) ℝ) = row (parGrad S s u ee.1 Q) := congrArg Prod.snd (interp_eq hm.trial S.conn (S.field u) ee.1 Q)
  rw [h0, h3]
  have h4 : (row (parGrad S s u ee.1 Q) * (jac S s ee.1 Q)⁻¹) 0 = grad S s u ee.1 Q := by
    funext j
    rw [Matrix.mul_apply]
    rfl
  rw [h4]
  have h5 := hr ee h Q hQ
  change (flatV ((Option.map _ (qf (ee.2 * S.E.npts + Q) (value S s u ee.1 Q) (grad S s u ee.1 Q) (value S s a ee.1 Q))).getD (0, 0)).1, flatM _) = _
  rw [show qf (ee.2 * S.E.npts + Q) (value S s u ee.1 Q) (grad S s u ee.1 Q) (∑ a_1 ∈ range S.E.ndof, S.field a (S.conn ee.1 a_1) 0 * s.phi Q a_1) = some (r ee Q) from h5,
    h5]
  rfl

theorem element_vector (hm : Meaning S s) {elements : List ℕ} (hg : Good S s elements) {qf : ℕ → ℝ → Vec ℝ d.n → ℝ → Option (ℝ × Vec ℝ d.n)} {u a : S.Nodal}
    {r : ℕ × ℕ → ℕ → ℝ × Vec ℝ d.n} (hr : Result S s elements qf u a r) (zf : Bool) (r0 : ℕ → ℝ) (e : ℕ) {k : ℕ} (hk : k < S.E.ndof) :
    S.addIntegral zf elements qf u a r0 (e * (1 * S.E.ndof) + (((0 : Fin 1) : ℕ) * S.E.ndof + k)) = r0 (e * (1 * S.E.ndof) + (((0 : Fin 1) : ℕ) * S.E.ndof + k)) +
      (elements.zipIdx.map fun ee => if ee.1 = e then
        ∑ Q ∈ range S.E.npts, s.wt Q * ((jac S s ee.1 Q).det * (r ee Q).1 * s.phi Q k + if zf then 0 else
          ∑ l : Fin d.n, ((jac S s ee.1 Q).det • (row ((r ee Q).2) * (jac S s ee.1 Q)ᵀ⁻¹)) 0 l * s.dphi Q k l) else 0).sum := by
  have hd : 0 < d.n := by cases d <;> decide
  have ht : ((0 : Fin 1) : ℕ) * S.E.ndof + k < 1 * S.E.ndof := by simpa using hk
  have e1 : (((0 : Fin 1) : ℕ) * S.E.ndof + k) / S.E.ndof = 0 := by simpa using Or.inr hk
  have e2 : (((0 : Fin 1) : ℕ) * S.E.ndof + k) % S.E.ndof = k := by simpa using Nat.mod_eq_of_lt hk
  unfold Problem.addIntegral
  rw [C51.eval_at hm.test 1 1 one_pos (by rw [hm.dim]; exact hd) false zf _ _ _ _ e _ ht]
  congr 2
  refine List.map_congr_left fun ee hee => ?_
  by_cases he : ee.1 = e
  · rw [if_pos he, if_pos he]
    dsimp only
    unfold C51.weigh
    refine sum_congr rfl fun Q hQ => ?_
    simp only [Bool.false_eq_true, if_false]
    rw [outcome hm hg hr hee (mem_range.1 hQ), e1, e2, hm.dim]
    dsimp only
    congr 2
    cases zf
    · simp only [Bool.false_eq_true, if_false]
      rw [← Fin.sum_univ_eq_sum_range fun l => flatM ((jac S s ee.1 Q).det • (row ((r ee Q).2) * (jac S s ee.1 Q)ᵀ⁻¹)) 0 l * s.dphi Q k l]
      refine sum_congr rfl fun l _ => ?_
      congr 1
      simp [flatM]
    · simp
  · rw [if_neg he, if_neg he]

/-- The product of a nodal residual with a nodal field. -/
def dot (r v : S.Nodal) : ℝ := ∑ n, r n * v n

def scattered (S : Problem d) (r : ℕ → ℝ) : S.Nodal := fun n => scatterE (c := 1) S.E.ndof S.ne S.conn r n 0

theorem scattered_dot (r : ℕ → ℝ) (v : S.Nodal) : dot (scattered S r) v =
    ∑ e ∈ range S.ne, ∑ k ∈ range S.E.ndof, r (e * (1 * S.E.ndof) + (((0 : Fin 1) : ℕ) * S.E.ndof + k)) * v (S.conn e k) := by
  have := scatter_dot (c := 1) (ndof := S.E.ndof) (ne := S.ne) S.conn r (S.field v)
  simp only [Fin.sum_univ_one] at this
  exact this

theorem flux_change (f : Vec ℝ d.n) (v : S.Nodal) (e Q : ℕ) (hJ : (jac S s e Q).det ≠ 0) :
    ∑ l, ((jac S s e Q).det • (row (f) * (jac S s e Q)ᵀ⁻¹)) 0 l * parGrad S s v e Q l = (jac S s e Q).det * ∑ j, f j * grad S s v e Q j := by
  have h := contract_H1 (row f) (row (grad S s v e Q)) (jac S s e Q) hJ
  have h1 : (row (grad S s v e Q) * jac S s e Q) = row (parGrad S s v e Q) := by
    have : row (grad S s v e Q) = row (parGrad S s v e Q) * (jac S s e Q)⁻¹ := by
      ext i j
      rw [Matrix.mul_apply]
      rfl
    rw [this, Matrix.mul_assoc, Matrix.nonsing_inv_mul _ hJ.isUnit, Matrix.mul_one]
  rw [h1] at h
  simp only [Fin.sum_univ_one] at h
  change ∑ j, (row f * (jac S s e Q)ᵀ⁻¹) 0 j * parGrad S s v e Q j = ∑ j, f j * grad S s v e Q j at h
  rw [← h, mul_sum]
  exact sum_congr rfl fun l _ => by rw [Matrix.smul_apply, smul_eq_mul, mul_assoc]

/-- One integral tested with a nodal field. -/
theorem tested (hm : Meaning S s) {elements : List ℕ} (hg : Good S s elements) {qf : ℕ → ℝ → Vec ℝ d.n → ℝ → Option (ℝ × Vec ℝ d.n)} {u a : S.Nodal}
    {r : ℕ × ℕ → ℕ → ℝ × Vec ℝ d.n} (hr : Result S s elements qf u a r) (zf : Bool) (r0 : ℕ → ℝ) (v : S.Nodal) :
    dot (scattered S (S.addIntegral zf elements qf u a r0)) v = dot (scattered S r0) v + integral S s elements fun ee Q =>
      (r ee Q).1 * value S s v ee.1 Q + if zf then 0 else ∑ j, (r ee Q).2 j * grad S s v ee.1 Q j := by
  rw [scattered_dot, scattered_dot]
  have : ∀ e ∈ range S.ne, ∑ k ∈ range S.E.ndof, S.addIntegral zf elements qf u a r0 (e * (1 * S.E.ndof) + (((0 : Fin 1) : ℕ) * S.E.ndof + k)) * v (S.conn e k) =
      (∑ k ∈ range S.E.ndof, r0 (e * (1 * S.E.ndof) + (((0 : Fin 1) : ℕ) * S.E.ndof + k)) * v (S.conn e k)) +
      (elements.zipIdx.map fun ee => if ee.1 = e then ∑ Q ∈ range S.E.npts, s.wt Q * ((jac S s ee.1 Q).det *
        ((r ee Q).1 * value S s v ee.1 Q + if zf then 0 else ∑ j, (r ee Q).2 j * grad S s v ee.1 Q j)) else 0).sum := by
    intro e _
    rw [sum_congr rfl fun k hk => by rw [element_vector hm hg hr zf r0 e (mem_range.1 hk), add_mul, ← List.sum_map_mul_right], sum_add_distrib, list_sum_comm]
    congr 2
    refine List.map_congr_left fun ee hee => ?_
    split_ifs with he hz
    · subst he
      simp only [sum_mul, add_zero]
      rw [sum_comm]
      refine sum_congr rfl fun Q _ => ?_
      unfold value
      simp only [mul_sum]
      exact sum_congr rfl fun k _ => by ring
    · subst he
      simp only [sum_mul]
      rw [sum_comm]
      refine sum_congr rfl fun Q hQ => ?_
      rw [mul_add, ← flux_change (r ee Q).2 v ee.1 Q ((hg ee.1 (mem_zipIdx_fst hee)).2 Q (mem_range.1 hQ))]
      unfold value parGrad
      simp only [mul_sum, mul_add, add_mul, sum_add_distrib, sum_mul]
      congr 1
      · exact sum_congr rfl fun k _ => by ring
      · rw [sum_comm]
        exact sum_congr rfl fun k _ => sum_congr rfl fun l _ => by ring
    · simp
  rw [sum_congr rfl this, sum_add_distrib, list_sum_comm]
  congr 1
  unfold integral
  congr 1
  refine List.map_congr_left fun ee hee => ?_
  rw [sum_ite_eq, if_pos (mem_range.2 (hg _ (mem_zipIdx_fst hee)).1)]

variable (S s)

/-- The heat flux at every point. -/
def Flux (u : S.Nodal) (q : ℕ × ℕ → ℕ → Vec ℝ d.n) : Prop := ∀ ee ∈ S.elements.zipIdx, ∀ Q < S.E.npts,
  (S.material (ee.2 * S.E.npts + Q)).flux (value S s u ee.1 Q) (grad S s u ee.1 Q) = some (q ee Q)

/-- Heat capacity at a point. -/
def capacity (ee : ℕ × ℕ) (Q : ℕ) : ℝ := (S.material (ee.2 * S.E.npts + Q)).capacity

/-- The heat the sources supply per time, weighted with `v`, at time `t` for the temperature `u`. -/
def supplied (t : ℝ) (u v : S.Nodal) : ℝ := (S.sources.map fun src => integral S s src.elements fun ee Q =>
  src.value t (ee.2 * S.E.npts + Q) (value S s u ee.1 Q) (grad S s u ee.1 Q) * value S s v ee.1 Q).sum

/-- All elements of the mesh and of the domains of the sources exist and are not degenerate. -/
def AllGood : Prop := Good S s S.elements ∧ ∀ src ∈ S.sources, Good S s src.elements

/-- The shape functions sum to one, at every point. -/
def Unity : Prop := ∀ Q < S.E.npts, ∑ a ∈ range S.E.ndof, s.phi Q a = 1 ∧ ∀ k : Fin d.n, ∑ a ∈ range S.E.ndof, s.dphi Q a k = 0

variable {S s}

theorem integral_congr {l : List ℕ} {f g : ℕ × ℕ → ℕ → ℝ} (h : ∀ ee ∈ l.zipIdx, ∀ Q < S.E.npts, f ee Q = g ee Q) : integral S s l f = integral S s l g := by
  unfold integral
  congr 1
  exact List.map_congr_left fun ee hee => sum_congr rfl fun Q hQ => by rw [h ee hee Q (mem_range.1 hQ)]

theorem integral_lin (l : List ℕ) (x y : ℝ) (f g : ℕ × ℕ → ℕ → ℝ) :
    integral S s l (fun ee Q => x * f ee Q + y * g ee Q) = x * integral S s l f + y * integral S s l g := by
  unfold integral
  generalize l.zipIdx = L
  induction L with
  | nil => simp
  | cons a L ih =>
    rw [List.map_cons, List.sum_cons, ih, List.map_cons, List.sum_cons, List.map_cons, List.sum_cons]
    rw [sum_congr rfl fun Q _ => show s.wt Q * ((jac S s a.1 Q).det * (x * f a Q + y * g a Q)) =
      x * (s.wt Q * ((jac S s a.1 Q).det * f a Q)) + y * (s.wt Q * ((jac S s a.1 Q).det * g a Q)) by ring, sum_add_distrib, ← mul_sum, ← mul_sum]
    ring

theorem integral_mul (l : List ℕ) (x : ℝ) (f : ℕ × ℕ → ℕ → ℝ) : integral S s l (fun ee Q => x * f ee Q) = x * integral S s l f := by
  have := integral_lin (S := S) (s := s) l x 0 f f
  simpa using this

theorem integral_zero (l : List ℕ) : integral S s l (fun _ _ => 0) = 0 := by
  have := integral_mul (S := S) (s := s) l 0 fun _ _ => 0
  simpa using this

/-- **C72, weak form.**  The residual tested with any nodal field: heat that is stored, minus heat flux against its gradient, minus heat supplied by the sources. -/
theorem C72_weak_form (hm : Meaning S s) (hg : AllGood S s) (t : ℝ) (u a v : S.Nodal) (q : ℕ × ℕ → ℕ → Vec ℝ d.n) (hq : Flux S s u q) :
    ∑ n, S.residual t u a n * v n = integral S s S.elements (fun ee Q => capacity S ee Q * value S s a ee.1 Q * value S s v ee.1 Q -
      ∑ j, q ee Q j * grad S s v ee.1 Q j) - supplied S s t u v := by
  have key : ∀ (l : List (Source d)) (r0 : ℕ → ℝ), (∀ src ∈ l, Good S s src.elements) →
      dot (scattered S (l.foldl (fun r src => S.addIntegral true src.elements (fun p => sourceIntegrand (src.value t p)) u a r) r0)) v =
      dot (scattered S r0) v - (l.map fun src => integral S s src.elements fun ee Q =>
        src.value t (ee.2 * S.E.npts + Q) (value S s u ee.1 Q) (grad S s u ee.1 Q) * value S s v ee.1 Q).sum := by
    intro l
    induction l with
    | nil => intro r0 _; simp
    | cons src l ih =>
      intro r0 h
      rw [List.foldl_cons, ih _ fun x hx => h x (List.mem_cons_of_mem _ hx), List.map_cons, List.sum_cons]
      rw [tested hm (h src List.mem_cons_self) (qf := fun p => sourceIntegrand (src.value t p)) (u := u) (a := a)
        (r := fun ee Q => (-1 * src.value t (ee.2 * S.E.npts + Q) (value S s u ee.1 Q) (grad S s u ee.1 Q), 0)) (fun _ _ _ _ => rfl)]
      simp only [if_true, add_zero]
      rw [integral_congr (g := fun ee Q => -1 * (src.value t (ee.2 * S.E.npts + Q) (value S s u ee.1 Q) (grad S s u ee.1 Q) * value S s v ee.1 Q))
        fun ee _ Q _ => by ring, integral_mul]
      ring
  have h0 : dot (scattered S fun _ => 0) v = 0 := by rw [scattered_dot]; simp
  have h1 := key S.sources (S.addIntegral false S.elements (fun p => thermalIntegrand (S.material p)) u a fun _ => 0) hg.2
  rw [tested hm hg.1 (qf := fun p => thermalIntegrand (S.material p)) (u := u) (a := a)
    (r := fun ee Q => (capacity S ee Q * value S s a ee.1 Q, fun i => -1 * q ee Q i)) (fun ee hee Q hQ => by
      unfold thermalIntegrand
      beta_reduce
      rw [hq ee hee Q hQ]
      rfl), h0, zero_add] at h1
  refine h1.trans ?_
  unfold supplied
  congr 1
  refine integral_congr fun ee _ Q _ => ?_
  simp only [Bool.false_eq_true, if_false, neg_mul, one_mul, sum_neg_distrib]
  ring

/-! ### Linearity of evaluation -/

theorem value_lin (x y : ℝ) (v w : S.Nodal) (e Q : ℕ) : value S s (fun n => x * v n + y * w n) e Q = x * value S s v e Q + y * value S s w e Q := by
  unfold value
  rw [mul_sum, mul_sum, ← sum_add_distrib]
  exact sum_congr rfl fun a _ => by ring

theorem grad_lin (x y : ℝ) (v w : S.Nodal) (e Q : ℕ) (j : Fin d.n) :
    grad S s (fun n => x * v n + y * w n) e Q j = x * grad S s v e Q j + y * grad S s w e Q j := by
  unfold grad
  rw [mul_sum, mul_sum, ← sum_add_distrib]
  refine sum_congr rfl fun l _ => ?_
  have : parGrad S s (fun n => x * v n + y * w n) e Q l = x * parGrad S s v e Q l + y * parGrad S s w e Q l := by
    unfold parGrad
    rw [mul_sum, mul_sum, ← sum_add_distrib]
    exact sum_congr rfl fun a _ => by ring
  rw [this]
  ring

theorem value_const (hu : Unity S s) (c : ℝ) (e : ℕ) {Q : ℕ} (hQ : Q < S.E.npts) : value S s (fun _ => c) e Q = c := by
  unfold value
  rw [← mul_sum, (hu Q hQ).1, mul_one]

theorem grad_const (hu : Unity S s) (c : ℝ) (e : ℕ) {Q : ℕ} (hQ : Q < S.E.npts) : grad S s (fun _ => c) e Q = 0 := by
  funext j
  unfold grad parGrad
  refine sum_eq_zero fun l _ => ?_
  rw [← mul_sum, (hu Q hQ).2 l, mul_zero, zero_mul]

theorem value_zero (e Q : ℕ) : value S s (fun _ => 0) e Q = 0 := by simp [value]

/-- **C72, balance.**  The entries of the residual add up to the heat that is stored minus the heat that is supplied: conduction only moves heat. -/
theorem C72_balance (hm : Meaning S s) (hg : AllGood S s) (hu : Unity S s) (t : ℝ) (u a : S.Nodal) (q : ℕ × ℕ → ℕ → Vec ℝ d.n) (hq : Flux S s u q) :
    ∑ n, S.residual t u a n = integral S s S.elements (fun ee Q => capacity S ee Q * value S s a ee.1 Q) - supplied S s t u fun _ => 1 := by
  have := C72_weak_form hm hg t u a (fun _ => 1) q hq
  simp only [mul_one] at this
  rw [this]
  congr 1
  refine integral_congr fun ee _ Q hQ => ?_
  rw [value_const hu 1 ee.1 hQ, grad_const hu 1 ee.1 hQ]
  simp

/-- The product with a single node. -/
theorem single_dot {n : ℕ} (r : Fin n → ℝ) (i : Fin n) : ∑ m, r m * (if m = i then (1 : ℝ) else 0) = r i := by simp

/-- **C72, rest.**  A body of constant temperature conducts no heat, whatever its shape and material. -/
theorem C72_rest (hm : Meaning S s) (hg : AllGood S s) (hu : Unity S s) (hs : S.sources = []) (T : ℝ)
    (hp : ∀ ee ∈ S.elements.zipIdx, ∀ Q < S.E.npts, (S.material (ee.2 * S.E.npts + Q)).flux T 0 = some 0) (t : ℝ) (n : Fin S.nn) :
    S.residual t (fun _ => T) (fun _ => 0) n = 0 := by
  have hq : Flux S s (fun _ => T) fun _ _ => 0 := by
    intro ee hee Q hQ
    rw [value_const hu T ee.1 hQ, grad_const hu T ee.1 hQ]
    exact hp ee hee Q hQ
  have := C72_weak_form hm hg t _ (fun _ => 0) (fun m => if m = n then 1 else 0) _ hq
  rw [single_dot] at this
  rw [this, supplied, hs, List.map_nil, List.sum_nil, sub_zero]
  refine (integral_congr fun ee _ Q _ => ?_).trans (integral_zero S.elements)
  rw [value_zero]
  simp

/-- Positive volumes: weights and Jacobian determinants. -/
def Volumes (S : Problem d) (s : Shapes) (elements : List ℕ) : Prop := ∀ e ∈ elements, ∀ Q < S.E.npts, 0 ≤ s.wt Q * (jac S s e Q).det

theorem integral_nonneg {l : List ℕ} (hv : Volumes S s l) {f : ℕ × ℕ → ℕ → ℝ} (hf : ∀ ee ∈ l.zipIdx, ∀ Q < S.E.npts, 0 ≤ f ee Q) :
    0 ≤ integral S s l f := by
  unfold integral
  refine List.sum_nonneg fun x hx => ?_
  obtain ⟨ee, hee, rfl⟩ := List.mem_map.1 hx
  refine sum_nonneg fun Q hQ => ?_
  rw [← mul_assoc]
  exact mul_nonneg (hv ee.1 (mem_zipIdx_fst hee) Q (mem_range.1 hQ)) (hf ee hee Q (mem_range.1 hQ))

/-- The heat per time that flows down the temperature gradient: `-∫ q · ∇u`. -/
def dissipation (S : Problem d) (s : Shapes) (u : S.Nodal) (q : ℕ × ℕ → ℕ → Vec ℝ d.n) : ℝ :=
  integral S s S.elements fun ee Q => -∑ j, q ee Q j * grad S s u ee.1 Q j

theorem dissipation_nonneg (hv : Volumes S s S.elements) (hd : ∀ p, C49.Dissipates (S.material p)) {u : S.Nodal} {q : ℕ × ℕ → ℕ → Vec ℝ d.n}
    (hq : Flux S s u q) : 0 ≤ dissipation S s u q :=
  integral_nonneg hv fun ee hee Q hQ => neg_nonneg.2 (hd _ _ _ _ (hq ee hee Q hQ))

/-- **C72, dissipation.**  Without sources, the steady residual tested with the temperature is not negative: heat flows from hot to cold. -/
theorem C72_dissipation (hm : Meaning S s) (hg : AllGood S s) (hs : S.sources = []) (hv : Volumes S s S.elements)
    (hd : ∀ p, C49.Dissipates (S.material p)) (t : ℝ) (u : S.Nodal) (q : ℕ × ℕ → ℕ → Vec ℝ d.n) (hq : Flux S s u q) :
    ∑ n, S.residual t u (fun _ => 0) n * u n = dissipation S s u q ∧ 0 ≤ ∑ n, S.residual t u (fun _ => 0) n * u n := by
  have h : ∑ n, S.residual t u (fun _ => 0) n * u n = dissipation S s u q := by
    rw [C72_weak_form hm hg t u _ u q hq, supplied, hs, List.map_nil, List.sum_nil, sub_zero]
    refine integral_congr fun ee _ Q _ => ?_
    rw [value_zero]
    simp
  exact ⟨h, h ▸ dissipation_nonneg hv hd hq⟩

/-- Materials with conductivity `A` at each point (symmetric): `q = -A ∇u`. -/
structure Linear (S : Problem d) (A : ℕ → M d.n) : Prop where
  flux : ∀ p T g, (S.material p).flux T g = some fun i => -∑ j, A p i j * g j
  symm : ∀ p i j, A p i j = A p j i

/-- The flux of a linear material. -/
def linearFlux (S : Problem d) (s : Shapes) (A : ℕ → M d.n) (u : S.Nodal) (ee : ℕ × ℕ) (Q : ℕ) : Vec ℝ d.n :=
  fun i => -∑ j, A (ee.2 * S.E.npts + Q) i j * grad S s u ee.1 Q j

theorem linear_flux {A : ℕ → M d.n} (hl : Linear S A) (u : S.Nodal) : Flux S s u (linearFlux S s A u) := fun _ _ _ _ => hl.flux _ _ _

/-- **C72, reciprocity.**  For linear materials without sources, the residual of one temperature and rate tested with another is the same the other way round, for
temperatures and for rates. -/
theorem C72_reciprocity (hm : Meaning S s) (hg : AllGood S s) (hs : S.sources = []) {A : ℕ → M d.n} (hl : Linear S A) (t : ℝ) (u v : S.Nodal) (x y : ℝ) :
    ∑ n, S.residual t (fun m => x * u m) (fun m => y * u m) n * v n = ∑ n, S.residual t (fun m => x * v m) (fun m => y * v m) n * u n := by
  rw [C72_weak_form hm hg t _ _ v _ (linear_flux hl _), C72_weak_form hm hg t _ _ u _ (linear_flux hl _)]
  simp only [supplied, hs, List.map_nil, List.sum_nil, sub_zero]
  refine integral_congr fun ee _ Q _ => ?_
  have h1 : ∀ (x : ℝ) (u : S.Nodal), value S s (fun m => x * u m) ee.1 Q = x * value S s u ee.1 Q := fun x u => by
    have := value_lin (S := S) (s := s) x 0 u u ee.1 Q
    simpa using this
  have h2 : ∀ (x : ℝ) (u : S.Nodal) j, grad S s (fun m => x * u m) ee.1 Q j = x * grad S s u ee.1 Q j := fun x u j => by
    have := grad_lin (S := S) (s := s) x 0 u u ee.1 Q j
    simpa using this
  have h3 : ∑ j, linearFlux S s A (fun m => x * u m) ee Q j * grad S s v ee.1 Q j = ∑ j, linearFlux S s A (fun m => x * v m) ee Q j * grad S s u ee.1 Q j := by
    unfold linearFlux
    simp only [h2, neg_mul, sum_mul, sum_neg_distrib]
    rw [sum_comm]
    congr 1
    exact sum_congr rfl fun i _ => sum_congr rfl fun j _ => by rw [hl.symm]; ring
  rw [h1, h1, h3]
  ring

/-! ### Time steps -/

section Steps
open Serac.Ode

/-- The heat content of a temperature field, and the same for its square. -/
def content (S : Problem d) (s : Shapes) (x : S.Nodal) : ℝ := integral S s S.elements fun ee Q => capacity S ee Q * value S s x ee.1 Q
def square (S : Problem d) (s : Shapes) (x : S.Nodal) : ℝ := integral S s S.elements fun ee Q => capacity S ee Q * value S s x ee.1 Q ^ 2

/-- The nonlinear solver finds a rate with residual zero in steps of positive length, and leaves the constrained entries of the guess. -/
structure Solves (S : Problem d) (b : BCs S.nn) (solve : State1 S.nn → Ode.Vec S.nn → Ode.Vec S.nn) : Prop where
  zero : ∀ st guess, 0 < st.dt → ∀ n, S.rateResidual b.allDofs st (solve st guess) n = 0
  keeps : Keeps b solve

/-- The materials never stop. -/
def Total (S : Problem d) : Prop := ∀ p T g, (S.material p).flux T g ≠ none

theorem total_flux (h : Total S) (u : S.Nodal) : ∃ q, Flux S s u q := by
  refine ⟨fun ee Q => ((S.material (ee.2 * S.E.npts + Q)).flux (value S s u ee.1 Q) (grad S s u ee.1 Q)).getD 0, fun ee _ Q _ => ?_⟩
  obtain ⟨q, hq⟩ := Option.ne_none_iff_exists'.1 (h (ee.2 * S.E.npts + Q) (value S s u ee.1 Q) (grad S s u ee.1 Q))
  beta_reduce
  rw [hq, Option.getD_some]

/-- What a backward Euler step that controls the value or the rate of the constrained dofs satisfies: new temperature `x'`, rate `k`, heat balance of every free dof. -/
theorem step_spec {b : BCs S.nn} {solve : State1 S.nn → Ode.Vec S.nn → Ode.Vec S.nn} (h : Solves S b solve) {m : Enforce} (hm : m = .direct ∨ m = .rate) {dt : ℝ}
    (hdt : 0 < dt) (r : Run1 S.nn) : ∃ k : S.Nodal, (stepBE1 b m solve dt r).x = (fun n => 1 * r.x n + dt * k n) ∧ (stepBE1 b m solve dt r).t = r.t + dt ∧
      ∀ n ∉ b.allDofs, S.residual (r.t + dt) (stepBE1 b m solve dt r).x k n = 0 := by
  refine ⟨(solve1 b m solve r.st (r.t + dt) dt r.x).2, by funext n; simp [stepBE1], rfl, fun n hn => ?_⟩
  have hsp := solve1_spec (m := m) h.keeps r.st (r.t + dt) dt r.x
  have hu : (solve1 b m solve r.st (r.t + dt) dt r.x).1.u = r.x := by
    funext i
    by_cases hi : i ∈ b.allDofs
    · rw [(hsp.1 i hi).1]
      unfold constraint1
      simp only [ne_eq, hdt.ne', not_false_eq_true, if_true]
      rcases hm with rfl | rfl <;> rfl
    · exact hsp.2 i hi
  obtain ⟨st', g, h1, h2, h3, h4⟩ : ∃ st' g, (solve1 b m solve r.st (r.t + dt) dt r.x).2 = solve st' g ∧ st'.u = (solve1 b m solve r.st (r.t + dt) dt r.x).1.u ∧
      st'.time = r.t + dt ∧ st'.dt = dt := ⟨_, _, rfl, rfl, rfl, rfl⟩
  have hz := h.zero st' g (by rw [h4]; exact hdt) n
  unfold Problem.rateResidual at hz
  rw [if_neg hn, h2, h3, h4, hu, ← h1] at hz
  have h5 : (stepBE1 b m solve dt r).x = fun i => 1 * r.x i + dt * (solve1 b m solve r.st (r.t + dt) dt r.x).2 i := by
    funext i; simp [stepBE1]
  rw [h5]
  exact hz

/-- **C72, heat of a step.**  The heat content after a step is that before it plus the length of the step times what the sources supply at its end and what the fixed
nodes take in, which is the residual there. -/
theorem C72_step (hm : Meaning S s) (hg : AllGood S s) (hu : Unity S s) (ht : Total S) {b : BCs S.nn} {solve : State1 S.nn → Ode.Vec S.nn → Ode.Vec S.nn}
    (h : Solves S b solve) {m : Enforce} (hm' : m = .direct ∨ m = .rate) {dt : ℝ} (hdt : 0 < dt) (r : Run1 S.nn) :
    ∃ k : S.Nodal, (∀ n, (stepBE1 b m solve dt r).x n = r.x n + dt * k n) ∧ content S s (stepBE1 b m solve dt r).x = content S s r.x +
      dt * ((supplied S s (r.t + dt) (stepBE1 b m solve dt r).x fun _ => 1) + ∑ n with n ∈ b.allDofs, S.residual (r.t + dt) (stepBE1 b m solve dt r).x k n) := by
  obtain ⟨k, hx, -, hk⟩ := step_spec h hm' hdt r
  refine ⟨k, fun n => by rw [hx]; simp, ?_⟩
  obtain ⟨q, hq⟩ := total_flux (s := s) ht (stepBE1 b m solve dt r).x
  have hb := C72_balance hm hg hu (r.t + dt) (stepBE1 b m solve dt r).x k q hq
  have hs : ∑ n, S.residual (r.t + dt) (stepBE1 b m solve dt r).x k n = ∑ n with n ∈ b.allDofs, S.residual (r.t + dt) (stepBE1 b m solve dt r).x k n := by
    rw [sum_filter]
    refine sum_congr rfl fun n _ => ?_
    split_ifs with hn
    · rfl
    · exact hk n hn
  rw [← hs, hb]
  have hc : content S s (stepBE1 b m solve dt r).x = content S s r.x + dt * integral S s S.elements fun ee Q => capacity S ee Q * value S s k ee.1 Q := by
    unfold content
    have := integral_lin (S := S) (s := s) S.elements 1 dt (fun ee Q => capacity S ee Q * value S s r.x ee.1 Q) fun ee Q => capacity S ee Q * value S s k ee.1 Q
    rw [one_mul] at this
    rw [← this]
    refine integral_congr fun ee _ Q _ => ?_
    rw [hx, value_lin]
    ring
  rw [hc]
  ring

/-- What sources that do not depend on the temperature supply during a run: the sum over its steps, each with the sources at its end. -/
def supply (power : ℝ → ℝ) : ℝ → List ℝ → ℝ
  | _, [] => 0
  | t, dt :: l => dt * power (t + dt) + supply power (t + dt) l

/-- **C72, heat of a run.**  Without fixed nodes, the heat content after any number of steps of any lengths is that at the start plus what the sources supplied; an
insulated body without sources keeps its heat. -/
theorem C72_conservation (hm : Meaning S s) (hg : AllGood S s) (hu : Unity S s) (ht : Total S) {b : BCs S.nn} (hb : b.allDofs = [])
    {solve : State1 S.nn → Ode.Vec S.nn → Ode.Vec S.nn} (h : Solves S b solve) {m : Enforce} (hm' : m = .direct ∨ m = .rate) (power : ℝ → ℝ)
    (hp : ∀ t u, supplied S s t u (fun _ => 1) = power t) (dts : List ℝ) (hdt : ∀ dt ∈ dts, 0 < dt) (r : Run1 S.nn) :
    content S s (C21.run b m solve dts r).x = content S s r.x + supply power r.t dts := by
  induction dts generalizing r with
  | nil => simp [C21.run, supply]
  | cons dt l ih =>
    have h1 := ih (fun x hx => hdt x (List.mem_cons_of_mem _ hx)) (stepBE1 b m solve dt r)
    obtain ⟨k, -, h2⟩ := C72_step hm hg hu ht h hm' (hdt dt List.mem_cons_self) r
    rw [hb] at h2
    simp only [List.not_mem_nil, filter_false, sum_empty, add_zero, hp] at h2
    rw [h2] at h1
    refine h1.trans ?_
    rw [supply, add_assoc]
    rfl

/-- **C72, stability.**  Without sources and with fixed nodes held at temperature zero, the square of the temperature never grows, however long the step: what it loses is
at least twice the length of the step times the dissipation. -/
theorem C72_stability (hm : Meaning S s) (hg : AllGood S s) (hs : S.sources = []) (hv : Volumes S s S.elements) (ht : Total S)
    (hd : ∀ p, C49.Dissipates (S.material p)) (hc : ∀ p, 0 ≤ (S.material p).capacity) {b : BCs S.nn} {solve : State1 S.nn → Ode.Vec S.nn → Ode.Vec S.nn}
    (h : Solves S b solve) (hb : Prescribes b fun _ _ => 0) {dt : ℝ} (hdt : 0 < dt) (r : Run1 S.nn) :
    ∃ q, Flux S s (stepBE1 b .direct solve dt r).x q ∧ 0 ≤ dissipation S s (stepBE1 b .direct solve dt r).x q ∧
      square S s (stepBE1 b .direct solve dt r).x + 2 * dt * dissipation S s (stepBE1 b .direct solve dt r).x q ≤ square S s r.x := by
  obtain ⟨k, hx, -, hk⟩ := step_spec h (.inl rfl) hdt r
  have hzero : ∀ n ∈ b.allDofs, (stepBE1 b .direct solve dt r).x n = 0 := fun n hn => (C21.C21_direct_run hb h.keeps [] dt hdt.ne' r n hn).2
  generalize hX : (stepBE1 b .direct solve dt r).x = X at *
  obtain ⟨q, hq⟩ := total_flux (s := s) ht X
  refine ⟨q, hq, dissipation_nonneg hv hd hq, ?_⟩
  have hw := C72_weak_form hm hg (r.t + dt) X k X q hq
  rw [supplied, hs, List.map_nil, List.sum_nil, sub_zero] at hw
  have h0 : ∑ n, S.residual (r.t + dt) X k n * X n = 0 := by
    refine sum_eq_zero fun n _ => ?_
    by_cases hn : n ∈ b.allDofs
    · rw [hzero n hn, mul_zero]
    · rw [hk n hn, zero_mul]
  rw [h0] at hw
  have h1 : integral S s S.elements (fun ee Q => capacity S ee Q * value S s k ee.1 Q * value S s X ee.1 Q) + dissipation S s X q = 0 := by
    rw [hw]
    unfold dissipation
    have := integral_lin (S := S) (s := s) S.elements 1 1 (fun ee Q => capacity S ee Q * value S s k ee.1 Q * value S s X ee.1 Q)
      fun ee Q => -∑ j, q ee Q j * grad S s X ee.1 Q j
    rw [one_mul, one_mul] at this
    rw [← this]
    refine integral_congr fun ee _ Q _ => by ring
  have h2 : 0 ≤ square S s r.x - square S s X + 2 * dt * integral S s S.elements fun ee Q => capacity S ee Q * value S s k ee.1 Q * value S s X ee.1 Q := by
    unfold square
    have e1 := integral_lin (S := S) (s := s) S.elements 1 (-1) (fun ee Q => capacity S ee Q * value S s r.x ee.1 Q ^ 2) fun ee Q => capacity S ee Q * value S s X ee.1 Q ^ 2
    have e2 := integral_lin (S := S) (s := s) S.elements 1 (2 * dt) (fun ee Q => 1 * (capacity S ee Q * value S s r.x ee.1 Q ^ 2) + -1 * (capacity S ee Q * value S s X ee.1 Q ^ 2))
      fun ee Q => capacity S ee Q * value S s k ee.1 Q * value S s X ee.1 Q
    rw [e1] at e2
    have e3 : ∀ a b c : ℝ, a - b + c = 1 * (1 * a + -1 * b) + c := fun a b c => by ring
    rw [e3, ← e2]
    refine integral_nonneg hv fun ee _ Q _ => ?_
    have hxk : value S s X ee.1 Q = value S s r.x ee.1 Q + dt * value S s k ee.1 Q := by rw [hx, value_lin, one_mul]
    have : 1 * (1 * (capacity S ee Q * value S s r.x ee.1 Q ^ 2) + -1 * (capacity S ee Q * value S s X ee.1 Q ^ 2)) +
        2 * dt * (capacity S ee Q * value S s k ee.1 Q * value S s X ee.1 Q) = capacity S ee Q * (dt * value S s k ee.1 Q) ^ 2 := by
      rw [hxk]
      ring
    rw [this]
    exact mul_nonneg (hc _) (sq_nonneg _)
  have h3 : dissipation S s X q = -integral S s S.elements fun ee Q => capacity S ee Q * value S s k ee.1 Q * value S s X ee.1 Q := by linarith
  rw [h3]
  linarith

/-- and therefore over any number of steps of any lengths. -/
theorem C72_stability_run (hm : Meaning S s) (hg : AllGood S s) (hs : S.sources = []) (hv : Volumes S s S.elements) (ht : Total S)
    (hd : ∀ p, C49.Dissipates (S.material p)) (hc : ∀ p, 0 ≤ (S.material p).capacity) {b : BCs S.nn} {solve : State1 S.nn → Ode.Vec S.nn → Ode.Vec S.nn}
    (h : Solves S b solve) (hb : Prescribes b fun _ _ => 0) (dts : List ℝ) (hdt : ∀ dt ∈ dts, 0 < dt) (r : Run1 S.nn) :
    square S s (C21.run b .direct solve dts r).x ≤ square S s r.x := by
  induction dts generalizing r with
  | nil => exact le_refl _
  | cons dt l ih =>
    obtain ⟨q, -, h1, h2⟩ := C72_stability hm hg hs hv ht hd hc h hb (hdt dt List.mem_cons_self) r
    have h3 := ih (fun x hx => hdt x (List.mem_cons_of_mem _ hx)) (stepBE1 b .direct solve dt r)
    have h4 := mul_nonneg (mul_nonneg two_pos.le (hdt dt List.mem_cons_self).le) h1
    exact h3.trans (by linarith)

/-- The difference of the residuals of two rates, tested with their difference. -/
theorem step_difference {A : ℕ → M d.n} (hsrc : ∀ src ∈ S.sources, ∀ t p T T' g g', src.value t p T g = src.value t p T' g') (t dt : ℝ) (u k k' : S.Nodal)
    (h : (integral S s S.elements (fun ee Q => capacity S ee Q * value S s k ee.1 Q * value S s (fun n => 1 * k n + -1 * k' n) ee.1 Q -
        ∑ j, linearFlux S s A (fun m => 1 * u m + dt * k m) ee Q j * grad S s (fun n => 1 * k n + -1 * k' n) ee.1 Q j) -
        supplied S s t (fun m => 1 * u m + dt * k m) fun n => 1 * k n + -1 * k' n) -
      (integral S s S.elements (fun ee Q => capacity S ee Q * value S s k' ee.1 Q * value S s (fun n => 1 * k n + -1 * k' n) ee.1 Q -
        ∑ j, linearFlux S s A (fun m => 1 * u m + dt * k' m) ee Q j * grad S s (fun n => 1 * k n + -1 * k' n) ee.1 Q j) -
        supplied S s t (fun m => 1 * u m + dt * k' m) fun n => 1 * k n + -1 * k' n) = 0) :
    square S s (fun n => 1 * k n + -1 * k' n) + dt * dissipation S s (fun n => 1 * k n + -1 * k' n) (linearFlux S s A fun n => 1 * k n + -1 * k' n) = 0 := by
  have hsup : supplied S s t (fun m => 1 * u m + dt * k m) (fun n => 1 * k n + -1 * k' n) = supplied S s t (fun m => 1 * u m + dt * k' m) fun n => 1 * k n + -1 * k' n := by
    unfold supplied
    congr 1
    refine List.map_congr_left fun src hsc => integral_congr fun ee _ Q _ => ?_
    rw [hsrc src hsc]
  rw [hsup] at h
  generalize hδ : (fun n => 1 * k n + -1 * k' n : S.Nodal) = δ at *
  have h3 := integral_lin (S := S) (s := s) S.elements 1 (-1)
    (fun ee Q => capacity S ee Q * value S s k ee.1 Q * value S s δ ee.1 Q - ∑ j, linearFlux S s A (fun m => 1 * u m + dt * k m) ee Q j * grad S s δ ee.1 Q j)
    (fun ee Q => capacity S ee Q * value S s k' ee.1 Q * value S s δ ee.1 Q - ∑ j, linearFlux S s A (fun m => 1 * u m + dt * k' m) ee Q j * grad S s δ ee.1 Q j)
  have h4 := integral_lin (S := S) (s := s) S.elements 1 dt (fun ee Q => capacity S ee Q * value S s δ ee.1 Q ^ 2)
    fun ee Q => -∑ j, linearFlux S s A δ ee Q j * grad S s δ ee.1 Q j
  rw [one_mul] at h4
  unfold square dissipation
  rw [← h4, show (0 : ℝ) = 1 * integral S s S.elements (fun ee Q => capacity S ee Q * value S s k ee.1 Q * value S s δ ee.1 Q -
      ∑ j, linearFlux S s A (fun m => 1 * u m + dt * k m) ee Q j * grad S s δ ee.1 Q j) +
    -1 * integral S s S.elements (fun ee Q => capacity S ee Q * value S s k' ee.1 Q * value S s δ ee.1 Q -
      ∑ j, linearFlux S s A (fun m => 1 * u m + dt * k' m) ee Q j * grad S s δ ee.1 Q j) by linarith, ← h3]
  refine integral_congr fun ee _ Q _ => ?_
  have e1 : value S s δ ee.1 Q = value S s k ee.1 Q - value S s k' ee.1 Q := by rw [← hδ, value_lin]; ring
  have e2 : ∀ j, linearFlux S s A (fun m => 1 * u m + dt * k m) ee Q j - linearFlux S s A (fun m => 1 * u m + dt * k' m) ee Q j =
      dt * linearFlux S s A δ ee Q j := by
    intro j
    unfold linearFlux
    rw [neg_sub_neg, ← sum_sub_distrib, ← neg_mul_eq_mul_neg, mul_sum, ← sum_neg_distrib]
    refine sum_congr rfl fun i _ => ?_
    rw [grad_lin, grad_lin, ← hδ, grad_lin]
    ring
  have e3 : ∑ j, linearFlux S s A (fun m => 1 * u m + dt * k m) ee Q j * grad S s δ ee.1 Q j -
      ∑ j, linearFlux S s A (fun m => 1 * u m + dt * k' m) ee Q j * grad S s δ ee.1 Q j = dt * ∑ j, linearFlux S s A δ ee Q j * grad S s δ ee.1 Q j := by
    rw [← sum_sub_distrib, mul_sum]
    exact sum_congr rfl fun j _ => by rw [← sub_mul, e2, mul_assoc]
  have e4 : ∀ a b x y : ℝ, 1 * (a - x) + -1 * (b - y) = a - b - (x - y) := fun a b x y => by ring
  rw [e4, e3, pow_two, e1]
  ring

/-- **C72, steady state.**  A temperature solves the quasi-static problem (the module keeps the rate at zero) exactly if for every test field that vanishes at the fixed
nodes the heat flowing down its gradient is the heat the sources supply to it; the heat entering through the fixed nodes then is minus the total supply. -/
theorem C72_steady (hm : Meaning S s) (hg : AllGood S s) (hu : Unity S s) (dofs : List (Fin S.nn)) (t : ℝ) (u : S.Nodal) (q : ℕ × ℕ → ℕ → Vec ℝ d.n) (hq : Flux S s u q) :
    (S.staticResidual dofs t (fun _ => 0) u = 0 ↔
      ∀ v : S.Nodal, (∀ n ∈ dofs, v n = 0) → integral S s S.elements (fun ee Q => -∑ j, q ee Q j * grad S s v ee.1 Q j) = supplied S s t u v) ∧
    (S.staticResidual dofs t (fun _ => 0) u = 0 → ∑ n ∈ dofs.toFinset, S.residual t u (fun _ => 0) n = -supplied S s t u fun _ => 1) := by
  have hw : ∀ v : S.Nodal, ∑ n, S.residual t u (fun _ => 0) n * v n =
      integral S s S.elements (fun ee Q => -∑ j, q ee Q j * grad S s v ee.1 Q j) - supplied S s t u v := by
    intro v
    rw [C72_weak_form hm hg t u _ v q hq]
    congr 1
    refine integral_congr fun ee _ Q _ => ?_
    rw [value_zero]
    simp
  constructor
  · constructor
    · intro h v hv
      have : ∑ n, S.residual t u (fun _ => 0) n * v n = 0 := by
        refine sum_eq_zero fun n _ => ?_
        by_cases hn : n ∈ dofs
        · rw [hv n hn, mul_zero]
        · have := congrFun h n
          unfold Problem.staticResidual at this
          rw [if_neg hn] at this
          rw [this]
          simp
      rw [hw v] at this
      exact sub_eq_zero.1 this
    · intro h
      funext n
      unfold Problem.staticResidual
      by_cases hn : n ∈ dofs
      · rw [if_pos hn]; rfl
      · rw [if_neg hn]
        have h1 := hw (fun m => if m = n then 1 else 0)
        rw [single_dot, h _ (fun m hm' => if_neg (fun e : m = n => hn (e ▸ hm'))), sub_self] at h1
        exact h1
  · intro h
    have hb := C72_balance hm hg hu t u (fun _ => 0) q hq
    have h0 : integral S s S.elements (fun ee Q => capacity S ee Q * value S s (fun _ => 0) ee.1 Q) = 0 := by
      refine (integral_congr fun ee _ Q _ => ?_).trans (integral_zero S.elements)
      rw [value_zero, mul_zero]
    rw [h0, zero_sub] at hb
    rw [← hb]
    refine sum_subset (subset_univ _) fun n _ hn => ?_
    have := congrFun h n
    unfold Problem.staticResidual at this
    rw [if_neg (fun hm => hn (List.mem_toFinset.2 hm))] at this
    exact this

/-- **C72, steady states are unique** for linear materials and sources that do not depend on the temperature, if a temperature that vanishes at the fixed nodes and conducts no
heat is zero. -/
theorem C72_steady_unique (hm : Meaning S s) (hg : AllGood S s) (hu : Unity S s) {A : ℕ → M d.n} (hl : Linear S A)
    (hsrc : ∀ src ∈ S.sources, ∀ t p T T' g g', src.value t p T g = src.value t p T' g') (dofs : List (Fin S.nn)) (t : ℝ)
    (hdef : ∀ x : S.Nodal, (∀ n ∈ dofs, x n = 0) → dissipation S s x (linearFlux S s A x) = 0 → x = 0) (u u' : S.Nodal)
    (h : S.staticResidual dofs t (fun _ => 0) u = 0) (h' : S.staticResidual dofs t (fun _ => 0) u' = 0) (he : ∀ n ∈ dofs, u n = u' n) : u = u' := by
  let δ : S.Nodal := fun n => 1 * u n + -1 * u' n
  have hδ : ∀ n ∈ dofs, δ n = 0 := fun n hn => by simp [δ, he n hn]
  have h1 := (C72_steady hm hg hu dofs t u _ (linear_flux hl u)).1.1 h δ hδ
  have h2 := (C72_steady hm hg hu dofs t u' _ (linear_flux hl u')).1.1 h' δ hδ
  have hsup : supplied S s t u δ = supplied S s t u' δ := by
    unfold supplied
    congr 1
    refine List.map_congr_left fun src hsc => integral_congr fun ee _ Q _ => ?_
    rw [hsrc src hsc]
  have h3 := integral_lin (S := S) (s := s) S.elements 1 (-1) (fun ee Q => -∑ j, linearFlux S s A u ee Q j * grad S s δ ee.1 Q j)
    (fun ee Q => -∑ j, linearFlux S s A u' ee Q j * grad S s δ ee.1 Q j)
  have h4 : dissipation S s δ (linearFlux S s A δ) = 0 := by
    have e : dissipation S s δ (linearFlux S s A δ) = integral S s S.elements (fun ee Q => 1 * (-∑ j, linearFlux S s A u ee Q j * grad S s δ ee.1 Q j) +
        -1 * (-∑ j, linearFlux S s A u' ee Q j * grad S s δ ee.1 Q j)) := by
      unfold dissipation
      refine integral_congr fun ee _ Q _ => ?_
      have e2 : ∀ j, linearFlux S s A δ ee Q j = linearFlux S s A u ee Q j - linearFlux S s A u' ee Q j := by
        intro j
        unfold linearFlux
        rw [neg_sub_neg, ← sum_sub_distrib, ← sum_neg_distrib]
        refine sum_congr rfl fun i _ => ?_
        rw [grad_lin]
        ring
      simp only [e2, sub_mul, sum_sub_distrib]
      ring
    rw [e, h3, h1, h2, hsup]
    ring
  have h5 := hdef δ hδ h4
  funext n
  have := congrFun h5 n
  simp only [δ, Pi.zero_apply] at this
  linarith

/-- **C72, uniqueness.**  For linear materials and sources that do not depend on the temperature, the equation of a step has only one solution with given rates at the
fixed nodes, whatever the length of the step, if a temperature whose square integral vanishes is zero. -/
theorem C72_unique (hm : Meaning S s) (hg : AllGood S s) (hv : Volumes S s S.elements) {A : ℕ → M d.n} (hl : Linear S A)
    (hd : ∀ p, C49.Dissipates (S.material p)) (hsq : ∀ x : S.Nodal, square S s x = 0 → x = 0) (hc : ∀ p, 0 ≤ (S.material p).capacity)
    (hsrc : ∀ src ∈ S.sources, ∀ t p T T' g g', src.value t p T g = src.value t p T' g') (dofs : List (Fin S.nn)) (st : State1 S.nn) (hdt : 0 ≤ st.dt)
    (k k' : S.Nodal) (hk : S.rateResidual dofs st k = 0) (hk' : S.rateResidual dofs st k' = 0) (he : ∀ n ∈ dofs, k n = k' n) : k = k' := by
  let δ : S.Nodal := fun n => 1 * k n + -1 * k' n
  have hδ : ∀ n ∈ dofs, δ n = 0 := fun n hn => by simp [δ, he n hn]
  have hr : ∀ κ : S.Nodal, S.rateResidual dofs st κ = 0 → ∑ n, S.residual st.time (fun m => 1 * st.u m + st.dt * κ m) κ n * δ n = 0 := by
    intro κ hκ
    refine sum_eq_zero fun n _ => ?_
    by_cases hn : n ∈ dofs
    · rw [hδ n hn, mul_zero]
    · have := congrFun hκ n
      unfold Problem.rateResidual at this
      rw [if_neg hn] at this
      rw [this]
      simp
  have h1 := hr k hk
  have h2 := hr k' hk'
  rw [C72_weak_form hm hg _ _ _ _ _ (linear_flux hl _)] at h1 h2
  have h3 : square S s δ + st.dt * dissipation S s δ (linearFlux S s A δ) = 0 := step_difference hsrc st.time st.dt st.u k k' (sub_eq_zero.2 (h1.trans h2.symm))
  have h5 := dissipation_nonneg hv hd (linear_flux (s := s) hl δ)
  have h6 : 0 ≤ square S s δ := integral_nonneg hv fun ee _ Q _ => mul_nonneg (hc _) (sq_nonneg _)
  have h7 := hsq δ (by have := mul_nonneg hdt h5; linarith)
  funext n
  have := congrFun h7 n
  simp only [δ, Pi.zero_apply] at this
  linarith

/-- The residual of a step is an affine function of the rate. -/
theorem residual_affine (hm : Meaning S s) (hg : AllGood S s) {A : ℕ → M d.n} (hl : Linear S A)
    (hsrc : ∀ src ∈ S.sources, ∀ t p T T' g g', src.value t p T g = src.value t p T' g') (t dt : ℝ) (u k : S.Nodal) (n : Fin S.nn) :
    S.residual t (fun m => 1 * u m + dt * k m) k n - S.residual t (fun m => 1 * u m + dt * (0 : S.Nodal) m) 0 n =
      integral S s S.elements fun ee Q => capacity S ee Q * value S s k ee.1 Q * value S s (fun m => if m = n then 1 else 0) ee.1 Q -
        dt * ∑ j, linearFlux S s A k ee Q j * grad S s (fun m => if m = n then 1 else 0) ee.1 Q j := by
  have h := fun κ : S.Nodal => C72_weak_form hm hg t (fun m => 1 * u m + dt * κ m) κ (fun m => if m = n then 1 else 0) _ (linear_flux hl _)
  simp only [single_dot] at h
  rw [h, h]
  have hsup : supplied S s t (fun m => 1 * u m + dt * k m) (fun m => if m = n then 1 else 0) =
      supplied S s t (fun m => 1 * u m + dt * (0 : S.Nodal) m) (fun m => if m = n then 1 else 0) := by
    unfold supplied
    congr 1
    refine List.map_congr_left fun src hsc => integral_congr fun ee _ Q _ => ?_
    rw [hsrc src hsc]
  rw [hsup, sub_sub_sub_cancel_right]
  have e := integral_lin (S := S) (s := s) S.elements 1 (-1)
    (fun ee Q => capacity S ee Q * value S s k ee.1 Q * value S s (fun m => if m = n then 1 else 0) ee.1 Q -
      ∑ j, linearFlux S s A (fun m => 1 * u m + dt * k m) ee Q j * grad S s (fun m => if m = n then 1 else 0) ee.1 Q j)
    (fun ee Q => capacity S ee Q * value S s (0 : S.Nodal) ee.1 Q * value S s (fun m => if m = n then 1 else 0) ee.1 Q -
      ∑ j, linearFlux S s A (fun m => 1 * u m + dt * (0 : S.Nodal) m) ee Q j * grad S s (fun m => if m = n then 1 else 0) ee.1 Q j)
  rw [one_mul, neg_one_mul, ← sub_eq_add_neg] at e
  rw [← e]
  refine integral_congr fun ee _ Q _ => ?_
  have e2 : ∀ j, linearFlux S s A (fun m => 1 * u m + dt * k m) ee Q j = linearFlux S s A (fun m => 1 * u m + dt * (0 : S.Nodal) m) ee Q j + dt * linearFlux S s A k ee Q j := by
    intro j
    unfold linearFlux
    rw [← neg_mul_eq_mul_neg, mul_sum, ← neg_add, ← sum_add_distrib]
    congr 1
    refine sum_congr rfl fun i _ => ?_
    rw [grad_lin, grad_lin, show grad S s (0 : S.Nodal) ee.1 Q i = 0 by simp [grad, parGrad]]
    ring
  simp only [e2, add_mul, sum_add_distrib, mul_assoc, ← mul_sum]
  rw [show value S s (0 : S.Nodal) ee.1 Q = 0 from value_zero ee.1 Q]
  ring

/-- **C72, existence.**  In the same setting every step of positive length can be solved, for every choice of fixed nodes. -/
theorem C72_solvable (hm : Meaning S s) (hg : AllGood S s) (hv : Volumes S s S.elements) {A : ℕ → M d.n} (hl : Linear S A)
    (hd : ∀ p, C49.Dissipates (S.material p)) (hsq : ∀ x : S.Nodal, square S s x = 0 → x = 0) (hc : ∀ p, 0 ≤ (S.material p).capacity)
    (hsrc : ∀ src ∈ S.sources, ∀ t p T T' g g', src.value t p T g = src.value t p T' g') (b : BCs S.nn) :
    ∃ solve : State1 S.nn → Ode.Vec S.nn → Ode.Vec S.nn, Solves S b solve := by
  suffices h : ∀ (st : State1 S.nn) (guess : S.Nodal), ∃ k : S.Nodal, (0 < st.dt → S.rateResidual b.allDofs st k = 0) ∧ ∀ n ∈ b.allDofs, k n = guess n by
    refine ⟨fun st g => (h st g).choose, fun st g hdt n => ?_, fun st g n hn => (h st g).choose_spec.2 n hn⟩
    rw [(h st g).choose_spec.1 hdt]
    rfl
  intro st guess
  by_cases hdt : 0 < st.dt
  swap
  · exact ⟨guess, fun h => absurd h hdt, fun _ _ => rfl⟩
  let F : S.Nodal → S.Nodal := fun k n => if n ∈ b.allDofs then k n else S.residual st.time (fun m => 1 * st.u m + st.dt * k m) k n
  let L : S.Nodal →ₗ[ℝ] S.Nodal :=
    { toFun := fun k n => F k n - F 0 n
      map_add' := by
        intro k k'
        funext n
        simp only [F, Pi.add_apply]
        split_ifs with hn
        · simp
        · rw [residual_affine hm hg hl hsrc st.time st.dt st.u k, residual_affine hm hg hl hsrc st.time st.dt st.u k',
            show (fun m => 1 * st.u m + st.dt * (k m + k' m)) = fun m => 1 * st.u m + st.dt * (k + k') m from rfl, residual_affine hm hg hl hsrc]
          have e := integral_lin (S := S) (s := s) S.elements 1 1
            (fun ee Q => capacity S ee Q * value S s k ee.1 Q * value S s (fun m => if m = n then 1 else 0) ee.1 Q -
              st.dt * ∑ j, linearFlux S s A k ee Q j * grad S s (fun m => if m = n then 1 else 0) ee.1 Q j)
            (fun ee Q => capacity S ee Q * value S s k' ee.1 Q * value S s (fun m => if m = n then 1 else 0) ee.1 Q -
              st.dt * ∑ j, linearFlux S s A k' ee Q j * grad S s (fun m => if m = n then 1 else 0) ee.1 Q j)
          rw [one_mul, one_mul] at e
          rw [← e]
          refine integral_congr fun ee _ Q _ => ?_
          have h0 : k + k' = fun n => 1 * k n + 1 * k' n := by funext n; simp
          have h1 : ∀ j, linearFlux S s A (k + k') ee Q j = linearFlux S s A k ee Q j + linearFlux S s A k' ee Q j := by
            intro j
            unfold linearFlux
            rw [← neg_add, ← sum_add_distrib]
            congr 1
            refine sum_congr rfl fun i _ => ?_
            rw [h0, grad_lin]
            ring
          simp only [h1, add_mul, sum_add_distrib]
          rw [h0, value_lin]
          ring
      map_smul' := by
        intro c k
        funext n
        simp only [F, Pi.smul_apply, smul_eq_mul, RingHom.id_apply]
        split_ifs with hn
        · simp
        · rw [residual_affine hm hg hl hsrc]
          rw [show (fun m => 1 * st.u m + st.dt * (c * k m)) = fun m => 1 * st.u m + st.dt * (c • k) m from rfl, residual_affine hm hg hl hsrc, ← integral_mul]
          refine integral_congr fun ee _ Q _ => ?_
          have h0 : c • k = fun n => c * k n + 0 * k n := by funext n; simp
          have h1 : ∀ j, linearFlux S s A (c • k) ee Q j = c * linearFlux S s A k ee Q j := by
            intro j
            unfold linearFlux
            rw [← neg_mul_eq_mul_neg, mul_sum]
            congr 1
            refine sum_congr rfl fun i _ => ?_
            rw [h0, grad_lin]
            ring
          simp only [h1, mul_assoc, ← mul_sum]
          rw [h0, value_lin]
          ring }
  have hinj : Function.Injective L := by
    intro k k' hkk
    have hF : F k = F k' := by
      funext n
      have := congrFun hkk n
      exact sub_left_inj.1 this
    have hk : ∀ n, F k n = F k' n := fun n => congrFun hF n
    let δ : S.Nodal := fun n => 1 * k n + -1 * k' n
    have hδ : ∀ n ∈ b.allDofs, δ n = 0 := by
      intro n hn
      have := hk n
      simp only [F, if_pos hn] at this
      simp [δ, this]
    have h1 : ∑ n, (S.residual st.time (fun m => 1 * st.u m + st.dt * k m) k n - S.residual st.time (fun m => 1 * st.u m + st.dt * k' m) k' n) * δ n = 0 := by
      refine sum_eq_zero fun n _ => ?_
      by_cases hn : n ∈ b.allDofs
      · rw [hδ n hn, mul_zero]
      · have := hk n
        simp only [F, if_neg hn] at this
        rw [this, sub_self, zero_mul]
    have h2 : square S s δ + st.dt * dissipation S s δ (linearFlux S s A δ) = 0 := by
      simp only [sub_mul, sum_sub_distrib] at h1
      rw [C72_weak_form hm hg _ _ _ _ _ (linear_flux hl _), C72_weak_form hm hg _ _ _ _ _ (linear_flux hl _)] at h1
      exact step_difference hsrc st.time st.dt st.u k k' h1
    have h5 := dissipation_nonneg hv hd (linear_flux (s := s) hl δ)
    have h6 : 0 ≤ square S s δ := integral_nonneg hv fun ee _ Q _ => mul_nonneg (hc _) (sq_nonneg _)
    have h7 := hsq δ (by have := mul_nonneg hdt.le h5; linarith)
    funext n
    have := congrFun h7 n
    simp only [δ, Pi.zero_apply] at this
    linarith
  obtain ⟨k, hk⟩ := LinearMap.injective_iff_surjective.1 hinj fun n => (if n ∈ b.allDofs then guess n else 0) - F 0 n
  have hk' : ∀ n, F k n = if n ∈ b.allDofs then guess n else 0 := fun n => sub_left_inj.1 (congrFun hk n)
  refine ⟨k, fun _ => ?_, fun n hn => ?_⟩
  · funext n
    unfold Problem.rateResidual
    split_ifs with hn
    · rfl
    · have := hk' n
      simp only [F, if_neg hn] at this
      exact this
  · have := hk' n
    simp only [F, if_pos hn] at this
    exact this

end Steps

/-! ### Uniform temperature gradients -/

/-- The mesh, seen as that of a solid with constant stress `P`. -/
def body (S : Problem d) (P : M d.n) : Setup d where
  E := S.E
  G := S.G
  nn := S.nn
  ng := S.ng
  conn := S.conn
  connG := S.connG
  pos := S.pos
  ne := S.ne
  elements := S.elements
  on := false
  density := 0
  material := fun _ _ => some P

/-- `X` are the reference positions of the nodes of the temperature. -/
def Positions (S : Problem d) (s : Shapes) (X : Fin S.nn → Fin d.n → ℝ) : Prop := C71.Positions (body S 0) s X

theorem grad_uniform (hg : Good S s S.elements) (hu : Unity S s) {X : Fin S.nn → Fin d.n → ℝ} (hX : Positions S s X) (g : Fin d.n → ℝ) (c : ℝ) {e Q : ℕ}
    (he : e ∈ S.elements) (hQ : Q < S.E.npts) : grad S s (fun n => ∑ i, g i * X n i + c) e Q = g := by
  have hJ := (hg e he).2 Q hQ
  have h1 : parGrad S s (fun n => ∑ i, g i * X n i + c) e Q = fun k => ∑ i, g i * jac S s e Q i k := by
    funext k
    have h2 : ∀ i, ∑ a ∈ range S.E.ndof, X (S.conn e a) i * s.dphi Q a k = jac S s e Q i k := fun i => congrFun (congrFun (hX e he Q hQ) i) k
    unfold parGrad
    simp only [add_mul, sum_add_distrib, sum_mul]
    rw [← mul_sum, (hu Q hQ).2 k, mul_zero, add_zero, sum_comm]
    refine sum_congr rfl fun i _ => ?_
    rw [← h2, mul_sum]
    exact sum_congr rfl fun a _ => by ring
  funext j
  unfold grad
  rw [h1]
  simp only [sum_mul]
  rw [sum_comm]
  have h3 : ∀ i, ∑ l, jac S s e Q i l * (jac S s e Q)⁻¹ l j = if i = j then 1 else 0 := by
    intro i
    have := congrFun (congrFun (Matrix.mul_nonsing_inv _ hJ.isUnit) i) j
    rw [Matrix.mul_apply, Matrix.one_apply] at this
    exact this
  have h4 : ∀ i ∈ univ, ∑ l, g i * jac S s e Q i l * (jac S s e Q)⁻¹ l j = g i * if i = j then 1 else 0 := by
    intro i _
    rw [← h3 i, mul_sum]
    exact sum_congr rfl fun l _ => by ring
  rw [sum_congr rfl h4]
  simp

/-- **C72, uniform gradient.**  A temperature that is a linear function of position, in a body whose flux for that gradient is `q` everywhere, at rest and without sources: a
node gets minus the flux tested with the integral of the gradient of its function. -/
theorem C72_uniform (hm : Meaning S s) (hg : AllGood S s) (hs : S.sources = []) (hu : Unity S s) {X : Fin S.nn → Fin d.n → ℝ} (hX : Positions S s X)
    (g : Fin d.n → ℝ) (c : ℝ) (q : Fin d.n → ℝ) (hq : ∀ p T, (S.material p).flux T g = some q) (t : ℝ) (n : Fin S.nn) :
    S.residual t (fun n => ∑ i, g i * X n i + c) (fun _ => 0) n = -∑ j, q j * C71.integral (body S 0) s fun ee Q => C71.shapeGrad (body S 0) s n ee.1 Q j := by
  have hf : Flux S s (fun n => ∑ i, g i * X n i + c) fun _ _ => q := by
    intro ee hee Q hQ
    rw [grad_uniform hg.1 hu hX g c (mem_zipIdx_fst hee) hQ]
    exact hq _ _
  have h := C72_weak_form hm hg t _ (fun _ => 0) (fun m => if m = n then 1 else 0) _ hf
  rw [single_dot, supplied, hs, List.map_nil, List.sum_nil, sub_zero] at h
  rw [h]
  have hsg : ∀ e Q j, grad S s (fun m => if m = n then 1 else 0) e Q j = C71.shapeGrad (body S 0) s n e Q j := by
    intro e Q j
    unfold grad parGrad C71.shapeGrad
    simp only [ite_mul, one_mul, zero_mul, sum_mul]
    rw [sum_comm]
    refine sum_congr rfl fun a _ => ?_
    change _ = if S.conn e a = n then ∑ l : Fin d.n, s.dphi Q a l * (jac S s e Q)⁻¹ l j else 0
    split_ifs <;> simp
  simp only [value_zero, mul_zero, zero_mul, zero_sub, hsg]
  change (S.elements.zipIdx.map _).sum = -∑ j, q j * (S.elements.zipIdx.map fun ee => ∑ Q ∈ range S.E.npts, s.wt Q * ((jac S s ee.1 Q).det * _)).sum
  generalize S.elements.zipIdx = L
  induction L with
  | nil => simp
  | cons ee L ih =>
    simp only [List.map_cons, List.sum_cons, mul_add, sum_add_distrib, neg_add, ih]
    congr 1
    simp only [mul_sum, mul_neg, sum_neg_distrib]
    rw [sum_comm]
    congr 1
    exact sum_congr rfl fun j _ => sum_congr rfl fun Q _ => by ring

theorem body_meaning (hm : Meaning S s) (hg : Good S s S.elements) (P : M d.n) : C71.Meaning (body S P) s :=
  ⟨hm.trial, hm.test, hm.geom, hm.dim, fun e he => (hg e he).1⟩

/-- The stress of that solid, with one row. -/
def rowStress {n : ℕ} (i : Fin n) (q : Fin n → ℝ) : M n := fun k j => if k = i then q j else 0

theorem body_flux (P A : M d.n) : Piola.materialFlux (ops d) false (fun _ => some P) A = some P := by
  unfold Piola.materialFlux
  rw [Option.bind_some]
  cases d
  · exact C33.C33_flux_off C33.exact2 _ _
  · exact C33.C33_flux_off C33.exact3 _ _

theorem flux_body (hm : Meaning S s) (hg : Good S s S.elements) (hu : Unity S s) {X : Fin S.nn → Fin d.n → ℝ} (hX : Positions S s X) (q : Fin d.n → ℝ)
    (i : Fin d.n) (n : Fin S.nn) : (body S (rowStress i q)).residual (fun n k => ((0 : M d.n) *ᵥ X n) k + 0) (fun _ _ => 0) n i =
      ∑ j, q j * C71.integral (body S 0) s fun ee Q => C71.shapeGrad (body S 0) s n ee.1 Q j := by
  refine (C71.C71_uniform (S := body S (rowStress i q)) (s := s) (body_meaning hm hg _) (fun e he => (hg e he).2) hu X hX 0 (fun _ => 0)
    (fun _ => some (rowStress i q)) (fun _ => rfl) (rowStress i q) (body_flux _ _) n i).trans ?_
  refine sum_congr rfl fun j _ => ?_
  rw [rowStress, if_pos rfl]
  rfl

/-- **C72, patch test, triangles.**  Heat enters and leaves such a body through its boundary only: half of what crosses an edge belongs to each of its ends. -/
theorem C72_patch_triangles {S : Problem .two} (hm : Meaning S s) (hg : AllGood S s) (hs : S.sources = []) (hu : Unity S s) {X : Fin S.nn → Fin 2 → ℝ}
    (hX : Positions S s X) (ht : C71.Triangles (body S 0) s X) (bdr : List (Fin S.nn × Fin S.nn)) (hb : C71.Boundary2 (body S 0) bdr) (g : Fin 2 → ℝ) (c : ℝ)
    (q : Fin 2 → ℝ) (hq : ∀ p T, (S.material p).flux T g = some q) (t : ℝ) (n : Fin S.nn) :
    S.residual t (fun n => ∑ i, g i * X n i + c) (fun _ => 0) n =
      -(bdr.map fun b => if b.1 = n ∨ b.2 = n then 1 / 2 * ∑ j, q j * C71.normal2 X b.1 b.2 j else 0).sum := by
  have h1 := C72_uniform hm hg hs hu hX g c q hq t n
  have h2 := flux_body hm hg.1 hu hX q 0 n
  have h3 := C71.C71_patch_triangles (S := body S (rowStress 0 q)) (s := s) (X := X) (body_meaning hm hg.1 _) (fun e he => (hg.1 e he).2) hu
    ⟨ht.ndof, ht.ndofG, ht.dphi, ht.dphiG, ht.wt, ht.pos⟩ bdr hb hX 0 (fun _ => 0) (fun _ => some (rowStress 0 q)) (fun _ => rfl) (rowStress 0 q) (body_flux (d := .two) _ _) n 0
  have h4 := h2.symm.trans h3
  refine h1.trans (congrArg Neg.neg (h4.trans ?_))
  rfl

/-- **C72, patch test, tetrahedra.** -/
theorem C72_patch_tetrahedra {S : Problem .three} (hm : Meaning S s) (hg : AllGood S s) (hs : S.sources = []) (hu : Unity S s) {X : Fin S.nn → Fin 3 → ℝ}
    (hX : Positions S s X) (ht : C71.Tetrahedra (body S 0) s X) (bdr : List (Fin S.nn × Fin S.nn × Fin S.nn)) (hb : C71.Boundary3 (body S 0) bdr)
    (g : Fin 3 → ℝ) (c : ℝ) (q : Fin 3 → ℝ) (hq : ∀ p T, (S.material p).flux T g = some q) (t : ℝ) (n : Fin S.nn) :
    S.residual t (fun n => ∑ i, g i * X n i + c) (fun _ => 0) n =
      -(bdr.map fun b => if b.1 = n ∨ b.2.1 = n ∨ b.2.2 = n then 1 / 6 * ∑ j, q j * C71.normal3 X b.1 b.2.1 b.2.2 j else 0).sum := by
  have h1 := C72_uniform hm hg hs hu hX g c q hq t n
  have h2 := flux_body hm hg.1 hu hX q 0 n
  have h3 := C71.C71_patch_tetrahedra (S := body S (rowStress 0 q)) (s := s) (X := X) (body_meaning hm hg.1 _) (fun e he => (hg.1 e he).2) hu
    ⟨ht.ndof, ht.ndofG, ht.dphi, ht.dphiG, ht.wt, ht.pos, ht.distinct⟩ bdr hb hX 0 (fun _ => 0) (fun _ => some (rowStress 0 q)) (fun _ => rfl) (rowStress 0 q) (body_flux (d := .three) _ _) n 0
  have h4 := h2.symm.trans h3
  refine h1.trans (congrArg Neg.neg (h4.trans ?_))
  rfl

/-- **C72, patch test, quadrilaterals.** -/
theorem C72_patch_quadrilaterals {S : Problem .two} {x y : ℕ → ℝ} (hm : Meaning S s) (hg : AllGood S s) (hs : S.sources = []) (hu : Unity S s)
    {X : Fin S.nn → Fin 2 → ℝ} (hX : Positions S s X) (ht : C71.Quadrilaterals (body S 0) s X x y) (bdr : List (Fin S.nn × Fin S.nn))
    (hb : C71.Boundary4 (body S 0) bdr) (g : Fin 2 → ℝ) (c : ℝ) (q : Fin 2 → ℝ) (hq : ∀ p T, (S.material p).flux T g = some q) (t : ℝ) (n : Fin S.nn) :
    S.residual t (fun n => ∑ i, g i * X n i + c) (fun _ => 0) n =
      -(bdr.map fun b => if b.1 = n ∨ b.2 = n then 1 / 2 * ∑ j, q j * C71.normal2 X b.1 b.2 j else 0).sum := by
  have h1 := C72_uniform hm hg hs hu hX g c q hq t n
  have h2 := flux_body hm hg.1 hu hX q 0 n
  have h3 := C71.C71_patch_quadrilaterals (S := body S (rowStress 0 q)) (s := s) (X := X) (x := x) (y := y) (body_meaning hm hg.1 _) (fun e he => (hg.1 e he).2) hu
    ⟨ht.ndof, ht.ndofG, ht.dphi, ht.dphiG, ht.wt, ht.wtx, ht.wty, ht.pos, ht.distinct⟩ bdr hb hX 0 (fun _ => 0) (fun _ => some (rowStress 0 q)) (fun _ => rfl)
    (rowStress 0 q) (body_flux (d := .two) _ _) n 0
  have h4 := h2.symm.trans h3
  refine h1.trans (congrArg Neg.neg (h4.trans ?_))
  rfl

/-! ### The conductors of the library -/

/-- **C72, conductors.**  The isotropic conductor is linear, never stops, dissipates and has no negative capacity; so has the anisotropic one for a symmetric definite
conductivity; all of them are at rest without gradient as long as their conductivity is not negative. -/
theorem C72_conductors (n : ℕ) (density cp k : ℝ) (m : Conductors.Material n) (hm : Conductors.isotropic n density cp k = some m) :
    (∀ T g, m.flux T g = some fun i => -∑ j, (k • (1 : M n)) i j * g j) ∧ (∀ T g, m.flux T g ≠ none) ∧ C49.Dissipates m ∧ 0 ≤ m.capacity ∧
      ∀ T, m.flux T 0 = some 0 := by
  obtain ⟨-, h2, h3, h4⟩ := (C49.C49_isotropic n density cp k).2 m hm
  refine ⟨fun T g => ?_, fun T g => by rw [h4]; simp, h3, h2, fun T => ?_⟩
  · rw [h4]
    congr 1
    funext i
    simp [Matrix.one_apply]
  · rw [h4]
    congr 1
    funext i
    simp

theorem C72_conductors_temperature (n : ℕ) (density cp k0 slope : ℝ) (m : Conductors.Material n)
    (hm : Conductors.temperatureDependent n density cp k0 slope = some m) (T : ℝ) (hT : 0 ≤ k0 + slope * T) : m.flux T 0 = some 0 := by
  rw [((C49.C49_temperature n density cp k0 slope m hm).2.2 T 0).1 hT]
  congr 1
  funext i
  simp

theorem C72_conductors_anisotropic (n : ℕ) (spd : Mat ℝ n n → Prop) (density cp : ℝ) (A : M n) (m : Conductors.Material n)
    (hm : Conductors.anisotropic spd density cp A = some m) :
    (∀ T g, m.flux T g = some fun i => -∑ j, A i j * g j) ∧ (∀ T g, m.flux T g ≠ none) ∧ 0 ≤ m.capacity ∧ ∀ T, m.flux T 0 = some 0 := by
  unfold Conductors.anisotropic at hm
  split_ifs at hm with h1 h2 h3
  cases hm
  have h : ∀ (T : ℝ) (g : Fin n → ℝ), (some (dotMV (fun i j => -1 * A i j) g) : Option (Vec ℝ n)) = some fun i => -∑ j, A i j * g j := by
    intro T g
    congr 1
    funext i
    refine (congrFun (dotMV_eq (n := n) (fun i j => -1 * A i j) g) i).trans ?_
    simp [Matrix.mulVec, dotProduct]
  refine ⟨h, fun T g => by simp, mul_nonneg (not_lt.1 h1) (not_lt.1 h2), fun T => ?_⟩
  refine (h T 0).trans ?_
  congr 1
  funext i
  simp

/-! ## Example: four triangles around an inner node of a square, three points each -/

/-- Linear triangles with the points `(1/6, 1/6)`, `(2/3, 1/6)`, `(1/6, 2/3)` of weight `1/6`. -/
def tri3 : Simplex ℝ (ℝ × ℝ) where
  dim := 2
  ndof := 3
  npts := 3
  phi x a := if a = 0 then 1 - x.1 - x.2 else if a = 1 then x.1 else x.2
  dphi _ a k := if a = 0 then -1 else if a = k + 1 then 1 else 0
  xi Q := if Q = 0 then (1 / 6, 1 / 6) else if Q = 1 then (2 / 3, 1 / 6) else (1 / 6, 2 / 3)
  wt _ := 1 / 6

/-- Density 1, heat capacity 3, conductivity 2. -/
def exMaterial : Conductors.Material 2 := (Conductors.isotropic 2 1 3 2).getD ⟨0, fun _ _ => none⟩

theorem ex_material : Conductors.isotropic 2 1 3 2 = some exMaterial := by
  unfold exMaterial Conductors.isotropic
  norm_num

def exHeat (sources : List (Source .two)) : Problem .two where
  E := simplex tri3
  G := simplex tri3
  nn := 5
  ng := 5
  conn := C71.exConn
  connG := C71.exConn
  pos := C71.exPos
  ne := 4
  elements := [0, 1, 2, 3]
  material := fun _ => exMaterial
  sources := sources

/-- Heating of two of the triangles, growing with time. -/
def exSource : Source .two := ⟨[1, 3], fun t _ _ _ => t ^ 2⟩

def exShapes : Shapes where
  phi Q a := tri3.phi (tri3.xi Q) a
  dphi Q a k := tri3.dphi (tri3.xi Q) a k
  wt := tri3.wt
  phiG Q a := tri3.phi (tri3.xi Q) a
  dphiG Q a k := tri3.dphi (tri3.xi Q) a k

variable (sources : List (Source .two))

theorem ex_meaning : Meaning (exHeat sources) exShapes :=
  ⟨(C51.C51_simplex tri3).1, (C51.C51_simplex tri3).2, (C51.C51_simplex tri3).1, rfl⟩

theorem ex_unity : Unity (exHeat sources) exShapes := by
  intro Q _
  constructor
  · simp [exHeat, simplex, exShapes, tri3, sum_range_succ, -Prod.mk.injEq]
    ring
  · intro k
    fin_cases k <;> simp [exHeat, simplex, exShapes, tri3, sum_range_succ]

theorem ex_triangles : C71.Triangles (body (exHeat sources) 0) exShapes C71.exPos := by
  refine ⟨rfl, rfl, fun Q _ a k => ?_, fun Q _ a k => ?_, ?_, fun e _ a _ => rfl⟩
  · fin_cases a <;> fin_cases k <;> simp [exShapes, tri3, Nodal.tri1Grad]
  · fin_cases a <;> fin_cases k <;> simp [exShapes, tri3, Nodal.tri1Grad]
  · simp [body, exHeat, simplex, exShapes, tri3, sum_range_succ]
    norm_num

theorem ex_positions : Positions (exHeat sources) exShapes C71.exPos := fun _ _ _ _ => rfl

theorem ex_det {e : ℕ} (he : e = 0 ∨ e = 1 ∨ e = 2 ∨ e = 3) {Q : ℕ} (hQ : Q < 3) : 0 < (jac (exHeat sources) exShapes e Q).det := by
  have hl : e ∈ (body (exHeat sources) 0).elements := by
    change e ∈ [0, 1, 2, 3]
    rcases he with rfl | rfl | rfl | rfl <;> simp
  have h := C71.triangle_jac (ex_triangles sources) hl hQ
  change jac (exHeat sources) exShapes e Q = _ at h
  rw [h]
  refine lt_of_lt_of_eq ?_ (Matrix.det_fin_two _).symm
  rcases he with rfl | rfl | rfl | rfl <;> simp [body, exHeat, C71.exConn, C71.exPos, Fin.ofNat] <;> norm_num

theorem ex_good (hs : ∀ src ∈ sources, src = exSource) : AllGood (exHeat sources) exShapes := by
  refine ⟨fun e he => ?_, fun src hsrc e he => ?_⟩
  · have he : e = 0 ∨ e = 1 ∨ e = 2 ∨ e = 3 := by simpa [exHeat] using he
    exact ⟨by change e < 4; omega, fun Q hQ => (ex_det sources he hQ).ne'⟩
  · rw [hs src hsrc] at he
    have he : e = 1 ∨ e = 3 := by simpa [exSource] using he
    exact ⟨by change e < 4; omega, fun Q hQ => (ex_det sources (by tauto) hQ).ne'⟩

theorem ex_volumes : Volumes (exHeat sources) exShapes (exHeat sources).elements := by
  intro e he Q hQ
  have he : e = 0 ∨ e = 1 ∨ e = 2 ∨ e = 3 := by simpa [exHeat] using he
  exact mul_nonneg (by simp [exShapes, tri3]) (ex_det sources he hQ).le

/-- Strictly positive volumes and a nonnegative integrand: a vanishing integral means a vanishing integrand. -/
theorem integral_eq_zero {S : Problem d} {l : List ℕ} (hv : ∀ e ∈ l, ∀ Q < S.E.npts, 0 < s.wt Q * (jac S s e Q).det) {f : ℕ × ℕ → ℕ → ℝ}
    (hf : ∀ ee ∈ l.zipIdx, ∀ Q < S.E.npts, 0 ≤ f ee Q) (h : integral S s l f = 0) : ∀ ee ∈ l.zipIdx, ∀ Q < S.E.npts, f ee Q = 0 := by
  intro ee hee Q hQ
  have hp : ∀ ee ∈ l.zipIdx, ∀ Q ∈ range S.E.npts, 0 ≤ s.wt Q * ((jac S s ee.1 Q).det * f ee Q) := fun ee hee Q hQ => by
    rw [← mul_assoc]
    exact mul_nonneg (hv ee.1 (mem_zipIdx_fst hee) Q (mem_range.1 hQ)).le (hf ee hee Q (mem_range.1 hQ))
  have h1 : ∑ Q ∈ range S.E.npts, s.wt Q * ((jac S s ee.1 Q).det * f ee Q) = 0 :=
    List.all_zero_of_le_zero_le_of_sum_eq_zero (fun x hx => by
      obtain ⟨ee, hee, rfl⟩ := List.mem_map.1 hx
      exact sum_nonneg (hp ee hee)) h (List.mem_map.2 ⟨ee, hee, rfl⟩)
  have h2 := (sum_eq_zero_iff_of_nonneg (hp ee hee)).1 h1 Q (mem_range.2 hQ)
  rw [← mul_assoc] at h2
  exact (mul_eq_zero.1 h2).resolve_left (hv ee.1 (mem_zipIdx_fst hee) Q hQ).ne'

theorem ex_definite (x : (exHeat sources).Nodal) (h : square (exHeat sources) exShapes x = 0) : x = 0 := by
  have hc : exMaterial.capacity = 3 := by
    have h := ((C49.C49_isotropic 2 1 3 2).2 _ ex_material).1
    rw [h]
    norm_num
  have hz := integral_eq_zero (S := exHeat sources) (fun e he Q hQ => mul_pos (by simp [exShapes, tri3])
    (ex_det sources (by simpa [exHeat] using he) hQ)) (fun ee _ Q _ => mul_nonneg (by change 0 ≤ exMaterial.capacity; rw [hc]; norm_num) (sq_nonneg _)) h
  have hv : ∀ e < 4, ∀ Q < 3, value (exHeat sources) exShapes x e Q = 0 := by
    intro e he Q hQ
    have := hz (e, e) (by change _ ∈ [(0, 0), (1, 1), (2, 2), (3, 3)]; interval_cases e <;> simp) Q hQ
    have h3 := (mul_eq_zero.1 this).resolve_left (by change exMaterial.capacity ≠ 0; rw [hc]; norm_num)
    exact pow_eq_zero_iff two_ne_zero |>.1 h3
  have hn : ∀ e < 4, x (C71.exConn e 0) = 0 ∧ x (C71.exConn e 2) = 0 := by
    intro e he
    have h0 := hv e he 0 (by norm_num)
    have h1 := hv e he 1 (by norm_num)
    have h2 := hv e he 2 (by norm_num)
    simp [value, exHeat, simplex, exShapes, tri3, sum_range_succ] at h0 h1 h2
    constructor <;> linarith
  have h0 := (hn 0 (by norm_num)).1
  have h1 := (hn 1 (by norm_num)).1
  have h2 := (hn 2 (by norm_num)).1
  have h3 := (hn 3 (by norm_num)).1
  have h4 := (hn 0 (by norm_num)).2
  funext n
  revert n
  change ∀ n : Fin 5, x n = 0
  intro n
  fin_cases n
  · exact h0
  · exact h1
  · exact h2
  · exact h3
  · exact h4

theorem ex_linear : Linear (exHeat sources) fun _ => (2 : ℝ) • (1 : M 2) :=
  ⟨fun _ T g => (C72_conductors 2 1 3 2 _ ex_material).1 T g, fun _ => by simp⟩

theorem ex_supplied (t : ℝ) (u : (exHeat [exSource]).Nodal) : supplied (exHeat [exSource]) exShapes t u (fun _ => 1) = t ^ 2 * (1 / 2) := by
  have hv : ∀ e, ∀ Q < 3, value (exHeat [exSource]) exShapes (fun _ => 1) e Q = 1 := by
    intro e Q hQ
    unfold value
    simp only [one_mul]
    exact (ex_unity [exSource] Q hQ).1
  have hj : ∀ e, ∀ Q < 3, e = 1 ∨ e = 3 → (jac (exHeat [exSource]) exShapes e Q).det = if e = 1 then 3 / 5 else 2 / 5 := by
    intro e Q hQ he
    have h := C71.triangle_jac (ex_triangles [exSource]) (e := e) (by change e ∈ [0, 1, 2, 3]; rcases he with rfl | rfl <;> simp) hQ
    change jac (exHeat [exSource]) exShapes e Q = _ at h
    rw [h]
    refine (Matrix.det_fin_two _).trans ?_
    rcases he with rfl | rfl <;> simp [body, exHeat, C71.exConn, C71.exPos, Fin.ofNat] <;> norm_num
  unfold supplied integral
  change ([exSource].map _).sum = _
  simp only [List.map_cons, List.map_nil, List.sum_cons, List.sum_nil, exSource, List.zipIdx_cons, List.zipIdx_nil, add_zero]
  have h3 : (exHeat [exSource]).E.npts = 3 := rfl
  have hw : ∀ Q, exShapes.wt Q = 1 / 6 := fun _ => rfl
  simp only [exSource] at hv hj h3
  rw [h3]
  simp only [sum_range_succ, range_zero, sum_empty, hv _ 0 (by norm_num), hv _ 1 (by norm_num), hv _ 2 (by norm_num), hj _ 0 (by norm_num) (Or.inl rfl),
    hj _ 1 (by norm_num) (Or.inl rfl), hj _ 2 (by norm_num) (Or.inl rfl), hj _ 0 (by norm_num) (Or.inr rfl), hj _ 1 (by norm_num) (Or.inr rfl),
    hj _ 2 (by norm_num) (Or.inr rfl), hw]
  norm_num
  ring

/-- The heated square with its corners fixed: in a steady state what the sources supply leaves through the corners. -/
example (t : ℝ) (u : (exHeat [exSource]).Nodal)
    (h : (exHeat [exSource]).staticResidual ([0, 1, 2, 3] : List (Fin 5)) t (fun _ => 0) u = 0) :
    ∑ n ∈ ([0, 1, 2, 3] : List (Fin 5)).toFinset, (exHeat [exSource]).residual t u (fun _ => 0) n = -(t ^ 2 * (1 / 2)) := by
  rw [← ex_supplied t u]
  exact (C72_steady (ex_meaning _) (ex_good _ (by simp)) (ex_unity _) _ t u _ (linear_flux (ex_linear _) u)).2 h

/-- Steps of the heated square are solvable, and over a run it gains what was supplied; all nodes are free. -/
example : ∃ solve, Solves (exHeat [exSource]) ⟨[], []⟩ solve ∧ ∀ dts : List ℝ, (∀ dt ∈ dts, 0 < dt) → ∀ r : Ode.Run1 5,
    content (exHeat [exSource]) exShapes (C21.run ⟨[], []⟩ .direct solve dts r).x =
      content (exHeat [exSource]) exShapes r.x + supply (fun t => t ^ 2 * (1 / 2)) r.t dts := by
  obtain ⟨-, h2, h3, h4, -⟩ := C72_conductors 2 1 3 2 _ ex_material
  have hg := ex_good [exSource] (by simp)
  obtain ⟨solve, hs⟩ := C72_solvable (ex_meaning _) hg (ex_volumes _) (ex_linear _) (fun _ => h3) (ex_definite _) (fun _ => h4)
    (by simp [exHeat, exSource]) ⟨[], []⟩
  exact ⟨solve, hs, fun dts hdt r => C72_conservation (ex_meaning _) hg (ex_unity _) (fun _ => h2) rfl hs (Or.inl rfl) _ ex_supplied dts hdt r⟩

def exWalls : Ode.BCs 5 := ⟨[⟨[0, 3], fun _ _ => 0⟩], [0, 3]⟩

/-- Two nodes held at zero: the square of the temperature never grows. -/
example : ∃ solve, Solves (exHeat []) exWalls solve ∧ ∀ dts : List ℝ, (∀ dt ∈ dts, 0 < dt) → ∀ r : Ode.Run1 5,
    square (exHeat []) exShapes (C21.run exWalls .direct solve dts r).x ≤ square (exHeat []) exShapes r.x := by
  obtain ⟨-, h2, h3, h4, -⟩ := C72_conductors 2 1 3 2 _ ex_material
  have hg := ex_good [] (by simp)
  obtain ⟨solve, hs⟩ := C72_solvable (ex_meaning []) hg (ex_volumes _) (ex_linear _) (fun _ => h3) (ex_definite _) (fun _ => h4)
    (by simp [exHeat]) exWalls
  refine ⟨solve, hs, fun dts hdt r => C72_stability_run (ex_meaning _) hg rfl (ex_volumes _) (fun _ => h2) (fun _ => h3) (fun _ => h4) hs ⟨?_, ?_⟩ dts hdt r⟩
  · intro bc hbc i hi t
    rw [List.mem_singleton.1 (show bc ∈ [_] from hbc)]
  · change ∀ i : Fin 5, i ∈ exWalls.allDofs ↔ ∃ bc ∈ exWalls.essentials, i ∈ bc.dofs
    simp [exWalls]

/-- The temperature `3x - y + 7` leaves the inner node in balance although its triangles are all different. -/
example (t : ℝ) : (exHeat []).residual t (fun n => ∑ i, ![3, -1] i * C71.exPos n i + 7) (fun _ => 0) (4 : Fin 5) = 0 := by
  have h := C72_patch_triangles (ex_meaning []) (ex_good [] (by simp)) rfl (ex_unity []) (ex_positions []) (ex_triangles []) _ (by exact C71.ex_boundary) ![3, -1] 7
    _ (fun _ T => (C72_conductors 2 1 3 2 _ ex_material).1 T ![3, -1]) t (4 : Fin 5)
  refine h.trans (neg_eq_zero.2 (List.sum_eq_zero fun x hx => ?_))
  obtain ⟨b, hb, rfl⟩ := List.mem_map.1 hx
  exact if_neg fun h => h.elim (C71.ex_inside b hb).1 (C71.ex_inside b hb).2

end Serac.C72
