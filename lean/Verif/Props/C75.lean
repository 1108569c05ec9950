import Verif.Model.SurfaceLoads
import Verif.Props.C73
import Verif.Props.C72
import Verif.Props.C65
import Mathlib.LinearAlgebra.CrossProduct
import Mathlib.Tactic.FinCases
/-!
# C75: loads on the boundary

Spec.  A traction is a force per area of the undeformed face, a pressure pushes against the outward normal of the current face (of the undeformed one if geometric
nonlinearities are off), a heat flux takes heat out of the body.  What follows for the whole residual, the one that gather, kernels, transformations, user
functions and scatter compute together: its virtual work (`C75_weak_form`, `C75_heat_weak_form`), balance of forces and heat, reactions, a uniform pressure on a
closed surface neither pushes nor turns the body, potentials, momentum, energy and heat over runs.
-/

noncomputable section
namespace Serac.C75
open Serac.Tensor Serac.Transform Serac.Kernels Serac.Solid Serac.Loads Finset
open Serac.C71 (M Shapes gather_at scatter_dot list_sum_comm getD_zipIdx mem_zipIdx_fst)
open scoped Matrix

/-! ## Spec: faces -/

section Spec
variable {nn ng : ℕ} (F : Faces nn ng) (s : Shapes)

/-- The elements of the faces mean their shape functions. -/
structure Meaning (d : Dim) : Prop where
  trial : C51.Trial F.E s.phi s.dphi
  test : C51.Test F.E s.phi s.dphi s.wt
  geom : C51.Trial F.G s.phiG s.dphiG
  dim : F.E.dim = faceDim d

/-- Value and derivative (with respect to the coordinates of the face) of a nodal field at point `Q` of face `e`. -/
def val {c : ℕ} (v : Fin nn → Vec ℝ c) (e Q : ℕ) : Fin c → ℝ := fun i => ∑ a ∈ range F.E.ndof, v (F.conn e a) i * s.phi Q a
def der (d : Dim) {c : ℕ} (v : Fin nn → Vec ℝ c) (e Q : ℕ) : Matrix (Fin c) (Fin (faceDim d)) ℝ := fun i k => ∑ a ∈ range F.E.ndof, v (F.conn e a) i * s.dphi Q a k

/-- Position and tangents of the undeformed face. -/
def place {d : Dim} (pos : Fin ng → Vec ℝ d.n) (e Q : ℕ) : Fin d.n → ℝ := fun i => ∑ b ∈ range F.G.ndof, pos (F.connG e b) i * s.phiG Q b
def tangents {d : Dim} (pos : Fin ng → Vec ℝ d.n) (e Q : ℕ) : Matrix (Fin d.n) (Fin (faceDim d)) ℝ := fun i k =>
  ∑ b ∈ range F.G.ndof, pos (F.connG e b) i * s.dphiG Q b k

/-- The area vector of a face from its tangents: the cross product, or the tangent turned by a right angle. -/
def area : (d : Dim) → Matrix (Fin d.n) (Fin (faceDim d)) ℝ → Fin d.n → ℝ
  | .two, J => ![J 1 0, -J 0 0]
  | .three, J => crossProduct (fun i => J i 0) (fun i => J i 1)

/-- Its length. -/
def size {n : ℕ} (A : Fin n → ℝ) : ℝ := Real.sqrt (∑ i, A i ^ 2)

/-- Sum over faces of a list (`ee.1` the face, `ee.2` its place in the list) and their points. -/
def integral (l : List ℕ) (f : ℕ × ℕ → ℕ → ℝ) : ℝ := (l.zipIdx.map fun ee => ∑ Q ∈ range F.E.npts, s.wt Q * f ee Q).sum

/-- Virtual work of a load on the field `w` of face points: traction times area of the undeformed face; minus pressure times area vector of the face, with the displacement added if geometric nonlinearities are on. -/
def work {d : Dim} (pos : Fin ng → Vec ℝ d.n) (on : Bool) (t : ℝ) (u : Fin nn → Vec ℝ d.n) (w : ℕ → ℕ → Fin d.n → ℝ) : Load d → ℝ
  | .traction l f => integral F s l fun ee Q =>
      let A := area d (tangents F s pos ee.1 Q)
      size A * ∑ i, f (place F s pos ee.1 Q) ((size A)⁻¹ • A) t i * w ee.1 Q i
  | .pressure l f => integral F s l fun ee Q =>
      -(f (place F s pos ee.1 Q) t * ∑ i, area d (tangents F s pos ee.1 Q + if on then der F s d u ee.1 Q else 0) i * w ee.1 Q i)

/-- The faces of a list exist and are not degenerate. -/
def Good {d : Dim} (pos : Fin ng → Vec ℝ d.n) (l : List ℕ) : Prop := ∀ e ∈ l, e < F.ne ∧ ∀ Q < F.E.npts, area d (tangents F s pos e Q) ≠ 0

end Spec

/-! ## The kernel -/

section Kernel
variable {nn ng : ℕ} {F : Faces nn ng} {s : Shapes}

theorem at_div {n q p : ℕ} (hq : q < n) : (p * n + q) / n = p ∧ (p * n + q) % n = q :=
  ⟨by rw [Nat.mul_comm, Nat.mul_add_div (by omega), Nat.div_eq_of_lt hq, Nat.add_zero], by rw [Nat.mul_comm, Nat.mul_add_mod, Nat.mod_eq_of_lt hq]⟩

/-- What a boundary integral adds to the vector of the faces. -/
theorem face_vector {d : Dim} (hm : Meaning F s d) {c : ℕ} (hc : 0 < c) (fn : PointFn ℝ) (l : List ℕ) (U : ℕ → ℝ) (e : ℕ) {k : ℕ} (hk : k < F.E.ndof) (i : Fin c) :
    evalKernel F.E F.E c c false true fn l U (fun _ => 0) (e * (c * F.E.ndof) + (i * F.E.ndof + k)) =
      (l.zipIdx.map fun ee => if ee.1 = e then ∑ Q ∈ range F.E.npts, s.wt Q *
        ((fn (ee.2 * F.E.npts + Q) ((interpolate F.E fun p => U (ee.1 * (c * F.E.ndof) + p)).value Q)
          ((interpolate F.E fun p => U (ee.1 * (c * F.E.ndof) + p)).grad Q)).1 i * s.phi Q k) else 0).sum := by
  have hd : 0 < F.E.dim := by rw [hm.dim]; cases d <;> decide
  have ht : (i : ℕ) * F.E.ndof + k < c * F.E.ndof := by
    have := Nat.mul_le_mul_right F.E.ndof (Nat.succ_le_of_lt i.2)
    rw [Nat.succ_mul] at this
    omega
  obtain ⟨e1, e2⟩ := at_div (p := (i : ℕ)) hk
  rw [C51.eval_at hm.test c c hc hd false true _ _ _ _ e _ ht, zero_add]
  congr 1
  refine List.map_congr_left fun ee _ => ?_
  by_cases he : ee.1 = e
  · rw [if_pos he, if_pos he]
    dsimp only
    unfold C51.weigh
    refine sum_congr rfl fun Q _ => ?_
    simp only [Bool.false_eq_true, if_false, if_true, zero_mul, sum_const_zero, add_zero, e1, e2]
  · rw [if_neg he, if_neg he]

/-- The vector of a boundary integral, tested with a nodal field. -/
theorem tested {d : Dim} (hm : Meaning F s d) {c : ℕ} (hc : 0 < c) (fn : PointFn ℝ) {l : List ℕ} (hl : ∀ e ∈ l, e < F.ne) (u v : Fin nn → Vec ℝ c) :
    ∑ n, ∑ i, F.integrate c fn l u n i * v n i = integral F s l fun ee Q => ∑ i : Fin c,
      (fn (ee.2 * F.E.npts + Q) ((interpolate F.E fun p => gatherE F.E.ndof F.conn u (ee.1 * (c * F.E.ndof) + p)).value Q)
        ((interpolate F.E fun p => gatherE F.E.ndof F.conn u (ee.1 * (c * F.E.ndof) + p)).grad Q)).1 i * val F s v ee.1 Q i := by
  unfold Faces.integrate
  generalize hG : gatherE F.E.ndof F.conn u = U
  set g : ℕ × ℕ → ℕ → ℕ → ℝ := fun ee Q i => (fn (ee.2 * F.E.npts + Q) ((interpolate F.E fun p => U (ee.1 * (c * F.E.ndof) + p)).value Q)
    ((interpolate F.E fun p => U (ee.1 * (c * F.E.ndof) + p)).grad Q)).1 i with hg
  rw [scatter_dot]
  have : ∀ e ∈ range F.ne, ∑ k ∈ range F.E.ndof, ∑ i : Fin c, evalKernel F.E F.E c c false true fn l U (fun _ => 0) (e * (c * F.E.ndof) + (i * F.E.ndof + k)) *
        v (F.conn e k) i =
      (l.zipIdx.map fun ee => if ee.1 = e then ∑ Q ∈ range F.E.npts, s.wt Q * ∑ i : Fin c, g ee Q i * val F s v ee.1 Q i else 0).sum := by
    intro e _
    have : ∀ k ∈ range F.E.ndof, ∑ i : Fin c, evalKernel F.E F.E c c false true fn l U (fun _ => 0) (e * (c * F.E.ndof) + (i * F.E.ndof + k)) * v (F.conn e k) i =
        (l.zipIdx.map fun ee => if ee.1 = e then ∑ i : Fin c, (∑ Q ∈ range F.E.npts, s.wt Q * (g ee Q i * s.phi Q k)) * v (F.conn e k) i else 0).sum := by
      intro k hk
      simp only [face_vector hm hc fn l U e (mem_range.1 hk)]
      generalize l.zipIdx = L
      induction L with
      | nil => simp
      | cons a l ih =>
        simp only [List.map_cons, List.sum_cons, add_mul, sum_add_distrib, ih]
        congr 1
        split_ifs <;> simp [hg]
    rw [sum_congr rfl this, list_sum_comm]
    congr 1
    refine List.map_congr_left fun ee _ => ?_
    split_ifs with he
    · simp only [sum_mul]
      rw [sum_congr rfl fun k _ => sum_comm, sum_comm]
      refine sum_congr rfl fun Q _ => ?_
      simp only [val, mul_sum]
      rw [he, sum_comm]
      exact sum_congr rfl fun i _ => sum_congr rfl fun k _ => by ring
    · simp
  rw [sum_congr rfl this, list_sum_comm]
  unfold integral
  congr 1
  refine List.map_congr_left fun ee hee => ?_
  rw [sum_ite_eq, if_pos (mem_range.2 (hl _ (mem_zipIdx_fst hee)))]

theorem interp_eq {d : Dim} {E : Elem ℝ} {phi dphi} (h : C51.Trial E phi dphi) {c : ℕ} {m : ℕ} (conn : ℕ → ℕ → Fin m) (u : Fin m → Vec ℝ c) (e Q : ℕ) :
    Faces.interp d c E (fun t => gatherE E.ndof conn u (e * (c * E.ndof) + t)) Q =
      (fun i => ∑ a ∈ range E.ndof, u (conn e a) i * phi Q a, fun i (k : Fin (faceDim d)) => ∑ a ∈ range E.ndof, u (conn e a) i * dphi Q a k) := by
  unfold Faces.interp
  congr 1
  · funext i
    simp only [interpolate, h.value]
    exact sum_congr rfl fun a ha => by rw [gather_at conn u e i (mem_range.1 ha)]
  · funext i k
    simp only [interpolate, h.grad]
    exact sum_congr rfl fun a ha => by rw [gather_at conn u e i (mem_range.1 ha)]

theorem geometry_eq {d : Dim} (hm : Meaning F s d) (pos : Fin ng → Vec ℝ d.n) {l : List ℕ} {ee : ℕ × ℕ} (h : ee ∈ l.zipIdx) (Q : ℕ) :
    F.geometry pos l ee.2 Q = (place F s pos ee.1 Q, tangents F s pos ee.1 Q) := by
  unfold Faces.geometry
  rw [getD_zipIdx h, interp_eq hm.geom]
  rfl

end Kernel

/-! ## Loads at a point -/

theorem size_eq {n : ℕ} (A : Fin n → ℝ) : Transform.norm A = size A := by
  unfold Transform.norm size
  rw [sqNormV_eq]
  congr 1
  exact sum_congr rfl fun i _ => (sq _).symm

theorem cross_three (J : Matrix (Fin 3) (Fin 2) ℝ) : crossCols J = area .three J := by
  funext i
  fin_cases i <;> simp [crossCols, area, crossProduct]

theorem cross_two (J : Matrix (Fin 2) (Fin 1) ℝ) : crossFace2 (fun i => J i 0) = area .two J := rfl

theorem traction_eq {d : Dim} (f : Vec ℝ d.n → Vec ℝ d.n → ℝ → Vec ℝ d.n) (t : ℝ) (x : Vec ℝ d.n) (J : Matrix (Fin d.n) (Fin (faceDim d)) ℝ) (h : area d J ≠ 0) :
    tractionAt d f t (x, J) = some (-(size (area d J) • f x ((size (area d J))⁻¹ • area d J) t)) := by
  cases d with
  | two =>
    have h1 : crossFace2 (line (x, J)).2 ≠ 0 := h
    have := C65.C65_traction2 f t (line (x, J)) (0, 0) h1 (by rwa [add_zero])
    rw [tractionAt, this]
    simp only [add_zero, C65.unit]
    rw [size_eq]
    simp [line, cross_two]
  | three =>
    have h1 : crossCols J ≠ 0 := by rwa [cross_three]
    have := (C65.C65_traction3 f t (x, J) (0, 0)).1 h1 (by rwa [add_zero])
    rw [tractionAt, this]
    simp only [add_zero, C65.unit]
    rw [size_eq, cross_three]

theorem pressure_eq {d : Dim} (on : Bool) (f : Vec ℝ d.n → ℝ → ℝ) (t : ℝ) (x y : Vec ℝ d.n) (J H : Matrix (Fin d.n) (Fin (faceDim d)) ℝ) (h : area d J ≠ 0) :
    pressureAt d on f t (x, J) (y, H) = some (f x t • area d (J + if on then H else 0)) := by
  cases d with
  | two =>
    have h1 : (line (x, J)).2 ≠ 0 := by
      intro h2
      refine h ?_
      have e0 := congrFun h2 0
      have e1 := congrFun h2 1
      simp only [line, Pi.zero_apply] at e0 e1
      funext i
      fin_cases i <;> simp [area, e0, e1]
    have := (C65.C65_pressure2 on f t (line (x, J)) (0, 0) (line (y, H))).1 h1 (by rwa [add_zero])
    rw [pressureAt, this, add_zero]
    refine congrArg some ?_
    have : C65.current on (line (x, J)).2 0 (line (y, H)).2 = fun i => (J + if on then H else 0) i 0 := by
      funext i
      cases on <;> simp [C65.current, line]
    rw [this, cross_two]
    rfl
  | three =>
    have h1 : crossCols J ≠ 0 := by rwa [cross_three]
    have := (C65.C65_pressure3 on f t (x, J) (0, 0) (y, H)).1 h1 (by rwa [add_zero])
    rw [pressureAt, this, add_zero]
    refine congrArg some ?_
    have : C65.current on J 0 H = J + if on then H else 0 := by
      cases on <;> simp [C65.current]
    rw [this, cross_three]

theorem flux_eq {d : Dim} (f : Vec ℝ d.n → Vec ℝ d.n → ℝ → ℝ → ℝ) (t temp : ℝ) (x : Vec ℝ d.n) (J : Matrix (Fin d.n) (Fin (faceDim d)) ℝ) (h : area d J ≠ 0) :
    fluxAt d f t temp (x, J) = some fun _ => size (area d J) * f x ((size (area d J))⁻¹ • area d J) t temp := by
  have hs : ∀ {n : ℕ} (A : Fin n → ℝ), A ≠ 0 → Transform.norm A ≠ 0 := fun A hA => (C65.len_zero A).not.2 hA
  cases d with
  | two =>
    have h1 : crossFace2 (line (x, J)).2 ≠ 0 := h
    have n1 := hs _ h1
    unfold fluxAt fluxAt2 weigh2 shaped2 flux2 add2
    simp only [addV_eq, add_zero]
    rw [C65.divN_some _ _ n1]
    simp only [Option.map_some, Option.bind_some, if_neg n1]
    refine congrArg some ?_
    funext _
    simp only [smulV_eq, areaCorrection2, addV_eq, add_zero, Pi.smul_apply, smul_eq_mul, div_self n1, one_mul]
    rw [size_eq]
    rfl
  | three =>
    have h1 : crossCols J ≠ 0 := by rwa [cross_three]
    have n1 := hs _ h1
    unfold fluxAt fluxAt3 weigh3 shaped3 flux3 add3
    simp only [addV_eq, addM_eq, add_zero]
    rw [C65.divN_some _ _ n1]
    simp only [Option.map_some, Option.bind_some, if_neg n1]
    refine congrArg some ?_
    funext _
    simp only [smulV_eq, areaCorrection3, addM_eq, add_zero, Pi.smul_apply, smul_eq_mul, div_self n1, one_mul]
    rw [size_eq, cross_three]

/-! ## Solids -/

section Solid
variable {d : Dim} (L : Loaded d) (s sF : Shapes)

/-- Virtual work of all loads on the boundary at displacement `u`. -/
def external (t : ℝ) (u v : Ode.Vec L.B.N) : ℝ := (L.loads.map (work L.F sF L.B.S.pos L.B.S.on t (L.B.nodal u) (val L.F sF (L.B.nodal v)))).sum

/-- All loads act on faces that exist and are not degenerate. -/
def AllGood : Prop := ∀ l ∈ L.loads, Good L.F sF L.B.S.pos l.elements

variable {L s sF}

/-- One load, tested. -/
theorem load_tested (hF : Meaning L.F sF d) {l : Load d} (hl : Good L.F sF L.B.S.pos l.elements) (t : ℝ) (u v : L.B.S.Nodal) :
    ∑ n, ∑ i, L.F.integrate d.n (L.loadFn l t) l.elements u n i * v n i = -work L.F sF L.B.S.pos L.B.S.on t u (val L.F sF v) l := by
  have hd : 0 < d.n := by cases d <;> decide
  rw [tested hF hd _ fun e he => (hl e he).1]
  have key : ∀ ee ∈ l.elements.zipIdx, ∀ Q < L.F.E.npts, ∀ i : Fin d.n,
      (L.loadFn l t (ee.2 * L.F.E.npts + Q) ((interpolate L.F.E fun p => gatherE L.F.E.ndof L.F.conn u (ee.1 * (d.n * L.F.E.ndof) + p)).value Q)
        ((interpolate L.F.E fun p => gatherE L.F.E.ndof L.F.conn u (ee.1 * (d.n * L.F.E.ndof) + p)).grad Q)).1 i =
      ((l.at L.B.S.on t (place L.F sF L.B.S.pos ee.1 Q, tangents L.F sF L.B.S.pos ee.1 Q) (val L.F sF u ee.1 Q, der L.F sF d u ee.1 Q)).getD 0) i := by
    intro ee hee Q hQ i
    obtain ⟨e1, e2⟩ := at_div (p := ee.2) hQ
    unfold Loaded.loadFn
    dsimp only
    rw [e1, e2, geometry_eq hF _ hee]
    have h3 := interp_eq (d := d) hF.trial L.F.conn u ee.1 Q
    unfold Faces.interp at h3
    rw [h3]
    simp only [flatV, Fin.is_lt, dif_pos]
    rfl
  unfold integral
  cases l with
  | traction l f =>
    unfold work integral
    rw [List.sum_neg, List.map_map]
    congr 1
    refine List.map_congr_left fun ee hee => ?_
    rw [Function.comp_apply, ← sum_neg_distrib]
    refine sum_congr rfl fun Q hQ => ?_
    beta_reduce
    rw [sum_congr rfl fun i _ => by rw [key ee hee Q (mem_range.1 hQ) i]]
    unfold Load.at
    dsimp only
    rw [traction_eq f t _ _ ((hl ee.1 (mem_zipIdx_fst hee)).2 Q (mem_range.1 hQ)), Option.getD_some]
    simp only [Pi.neg_apply, Pi.smul_apply, smul_eq_mul, neg_mul, sum_neg_distrib, mul_neg, mul_assoc, ← mul_sum]
  | pressure l f =>
    unfold work integral
    rw [List.sum_neg, List.map_map]
    congr 1
    refine List.map_congr_left fun ee hee => ?_
    rw [Function.comp_apply, ← sum_neg_distrib]
    refine sum_congr rfl fun Q hQ => ?_
    beta_reduce
    rw [sum_congr rfl fun i _ => by rw [key ee hee Q (mem_range.1 hQ) i]]
    unfold Load.at
    dsimp only
    rw [pressure_eq _ f t _ _ _ _ ((hl ee.1 (mem_zipIdx_fst hee)).2 Q (mem_range.1 hQ)), Option.getD_some]
    simp only [Pi.smul_apply, smul_eq_mul, mul_neg, neg_neg, mul_assoc, ← mul_sum]

/-- The residual is that of the body minus the loads. -/
theorem residual_tested (hF : Meaning L.F sF d) (hl : AllGood L sF) (t : ℝ) (u a v : Ode.Vec L.B.N) :
    ∑ k, L.residual t u a k * v k = ∑ k, L.B.residual t u a k * v k - external L sF t u v := by
  have key : ∀ (ls : List (Load d)) (r0 : Ode.Vec L.B.N), (∀ l ∈ ls, Good L.F sF L.B.S.pos l.elements) →
      ∑ k, ls.foldl (fun r l => r + L.B.vector (L.F.integrate d.n (L.loadFn l t) l.elements (L.B.nodal u))) r0 k * v k =
      ∑ k, r0 k * v k - (ls.map (work L.F sF L.B.S.pos L.B.S.on t (L.B.nodal u) (val L.F sF (L.B.nodal v)))).sum := by
    intro ls
    induction ls with
    | nil => intro r0 _; simp
    | cons l ls ih =>
      intro r0 h
      rw [List.foldl_cons, ih _ fun x hx => h x (List.mem_cons_of_mem _ hx), List.map_cons, List.sum_cons]
      have e : ∑ k, (r0 + L.B.vector (L.F.integrate d.n (L.loadFn l t) l.elements (L.B.nodal u))) k * v k =
          ∑ k, r0 k * v k - work L.F sF L.B.S.pos L.B.S.on t (L.B.nodal u) (val L.F sF (L.B.nodal v)) l := by
        have h1 : ∀ r r' : Ode.Vec L.B.N, ∑ k, (r + r') k * v k = ∑ k, r k * v k + ∑ k, r' k * v k := fun r r' => by
          rw [← sum_add_distrib]
          exact sum_congr rfl fun k _ => add_mul _ _ _
        rw [h1, C73.vector_dot, load_tested hF (h l List.mem_cons_self)]
        ring
      rw [e]
      ring
  exact key L.loads _ hl

/-- **C75, virtual work.**  The residual tested with any vector: inertia and stress against it, minus body forces, minus the loads on the boundary. -/
theorem C75_weak_form (hm : C71.Meaning L.B.S s) (hn : C71.Nondegenerate L.B.S s) (hf : C73.Domains L.B) (hF : Meaning L.F sF d) (hl : AllGood L sF) (t : ℝ)
    (u a v : Ode.Vec L.B.N) (P : ℕ × ℕ → ℕ → M d.n) (hP : C71.Stress L.B.S s (L.B.nodal u) P) :
    ∑ k, L.residual t u a k * v k = C73.inertia L.B s a v +
      C73.integral L.B s L.B.S.elements (fun ee Q => ∑ i, ∑ j, P ee Q i j * C73.grd L.B s v ee.1 Q i j) - C73.load L.B s t v - external L sF t u v := by
  rw [residual_tested hF hl, C73.C73_weak_form hm hn hf t u a v P hP]

end Solid

/-! ### Forces and moments -/

/-- The shape functions of the faces add up to one. -/
def Unity {nn ng : ℕ} (F : Faces nn ng) (s : Shapes) (d : Dim) : Prop :=
  ∀ Q < F.E.npts, ∑ a ∈ range F.E.ndof, s.phi Q a = 1 ∧ ∀ k : Fin (faceDim d), ∑ a ∈ range F.E.ndof, s.dphi Q a k = 0

/-- `X` are the places of the nodes: they give the tangents of the faces. -/
def Positions {nn ng : ℕ} (F : Faces nn ng) (s : Shapes) {d : Dim} (pos : Fin ng → Vec ℝ d.n) (X : Fin nn → Vec ℝ d.n) : Prop :=
  ∀ e Q, Q < F.E.npts → tangents F s pos e Q = der F s d X e Q

theorem val_const {nn ng : ℕ} {F : Faces nn ng} {s : Shapes} {d : Dim} (hu : Unity F s d) {c : ℕ} (w : Fin c → ℝ) (e : ℕ) {Q : ℕ} (hQ : Q < F.E.npts) :
    val F s (fun _ => w) e Q = w := by
  funext i
  unfold val
  rw [← mul_sum, (hu Q hQ).1, mul_one]

theorem integral_congr {nn ng : ℕ} {F : Faces nn ng} {s : Shapes} {l : List ℕ} {f g : ℕ × ℕ → ℕ → ℝ} (h : ∀ ee ∈ l.zipIdx, ∀ Q < F.E.npts, f ee Q = g ee Q) :
    integral F s l f = integral F s l g := by
  unfold integral
  congr 1
  exact List.map_congr_left fun ee hee => sum_congr rfl fun Q hQ => by rw [h ee hee Q (mem_range.1 hQ)]

theorem integral_lin {nn ng : ℕ} {F : Faces nn ng} {s : Shapes} (l : List ℕ) (x y : ℝ) (f g : ℕ × ℕ → ℕ → ℝ) :
    integral F s l (fun ee Q => x * f ee Q + y * g ee Q) = x * integral F s l f + y * integral F s l g := by
  unfold integral
  rw [← List.sum_map_mul_left, ← List.sum_map_mul_left, ← List.sum_map_add]
  congr 1
  refine List.map_congr_left fun ee _ => ?_
  rw [mul_sum, mul_sum, ← sum_add_distrib]
  exact sum_congr rfl fun Q _ => by ring

theorem work_congr {nn ng : ℕ} {F : Faces nn ng} {s : Shapes} {d : Dim} (pos : Fin ng → Vec ℝ d.n) (on : Bool) (t : ℝ) (u : Fin nn → Vec ℝ d.n)
    {w w' : ℕ → ℕ → Fin d.n → ℝ} (h : ∀ e, ∀ Q < F.E.npts, w e Q = w' e Q) (l : Load d) : work F s pos on t u w l = work F s pos on t u w' l := by
  cases l <;> exact integral_congr fun ee _ Q hQ => by rw [h ee.1 Q hQ]

theorem work_lin {nn ng : ℕ} {F : Faces nn ng} {s : Shapes} {d : Dim} (pos : Fin ng → Vec ℝ d.n) (on : Bool) (t : ℝ) (u : Fin nn → Vec ℝ d.n) (x y : ℝ)
    (w w' : ℕ → ℕ → Fin d.n → ℝ) (l : Load d) :
    work F s pos on t u (fun e Q i => x * w e Q i + y * w' e Q i) l = x * work F s pos on t u w l + y * work F s pos on t u w' l := by
  cases l with
  | traction l f =>
    unfold work
    rw [← integral_lin]
    refine integral_congr fun ee _ Q _ => ?_
    simp only [mul_sum, ← sum_add_distrib]
    exact sum_congr rfl fun i _ => by ring
  | pressure l f =>
    unfold work
    rw [← integral_lin]
    refine integral_congr fun ee _ Q _ => ?_
    simp only [mul_sum, mul_neg, ← neg_add, ← sum_add_distrib]
    refine congrArg _ (sum_congr rfl fun i _ => by ring)

/-- The resultant of the loads in direction `c`. -/
def thrust {d : Dim} (L : Loaded d) (sF : Shapes) (t : ℝ) (u : Ode.Vec L.B.N) (c : Fin d.n → ℝ) : ℝ :=
  (L.loads.map (work L.F sF L.B.S.pos L.B.S.on t (L.B.nodal u) fun _ _ => c)).sum

section Balance
variable {d : Dim} {L : Loaded d} {s sF : Shapes}

theorem external_shift (hu : Unity L.F sF d) (t : ℝ) (u : Ode.Vec L.B.N) (c : Fin d.n → ℝ) : external L sF t u (C73.shift L.B c) = thrust L sF t u c := by
  unfold external thrust
  rw [C73.nodal_shift]
  congr 1
  exact List.map_congr_left fun l _ => work_congr _ _ _ _ (fun e Q hQ => val_const hu c e hQ) l

/-- **C75, balance of forces.**  In every direction, the residual adds up to mass times acceleration minus body forces minus the loads on the boundary. -/
theorem C75_force (hm : C71.Meaning L.B.S s) (hn : C71.Nondegenerate L.B.S s) (hf : C73.Domains L.B) (hu : C71.Unity L.B.S s) (hF : Meaning L.F sF d)
    (hl : AllGood L sF) (huF : Unity L.F sF d) (t : ℝ) (u a : Ode.Vec L.B.N) (hd : C73.Defined L.B s u) (c : Fin d.n → ℝ) :
    ∑ k, L.residual t u a k * C73.shift L.B c k = C73.total L.B s a c - C73.resultant L.B s t c - thrust L sF t u c := by
  obtain ⟨P, hP⟩ := hd
  rw [C75_weak_form hm hn hf hF hl t u a _ P hP, external_shift huF, C73.total_eq hu, C73.resultant_eq hu,
    C73.integral_congr (g := fun _ _ => 0) fun ee _ Q hQ => by simp only [C73.grd_shift hu c ee.1 hQ, mul_zero, sum_const_zero], C73.integral_zero, add_zero]

/-- **C75, Newton's law** for a body on which nothing is fixed. -/
theorem C75_newton (hm : C71.Meaning L.B.S s) (hn : C71.Nondegenerate L.B.S s) (hf : C73.Domains L.B) (hu : C71.Unity L.B.S s) (hF : Meaning L.F sF d)
    (hl : AllGood L sF) (huF : Unity L.F sF d) {t : ℝ} {u a : Ode.Vec L.B.N} (hd : C73.Defined L.B s u) (hb : ∀ k, L.residual t u a k = 0) (c : Fin d.n → ℝ) :
    C73.total L.B s a c = C73.resultant L.B s t c + thrust L sF t u c := by
  have h := C75_force hm hn hf hu hF hl huF t u a hd c
  rw [sum_eq_zero fun k _ => by rw [hb k, zero_mul]] at h
  linarith

/-- **C75, reactions.**  At a root of the quasi-static problem at rest the residual at the fixed dofs balances body forces and loads on the boundary. -/
theorem C75_reactions (hm : C71.Meaning L.B.S s) (hn : C71.Nondegenerate L.B.S s) (hf : C73.Domains L.B) (hu : C71.Unity L.B.S s) (hF : Meaning L.F sF d)
    (hl : AllGood L sF) (huF : Unity L.F sF d) (fixed : List (Fin L.B.N)) {t : ℝ} {u : Ode.Vec L.B.N} (hd : C73.Defined L.B s u)
    (hr : L.staticResidual fixed t 0 u = 0) (c : Fin d.n → ℝ) :
    ∑ k ∈ fixed.toFinset, L.residual t u 0 k * C73.shift L.B c k = -(C73.resultant L.B s t c + thrust L sF t u c) := by
  have h := C75_force hm hn hf hu hF hl huF t u 0 hd c
  have h0 : C73.total L.B s 0 c = 0 := by
    have := C73.total_lin (B := L.B) (s := s) 0 0 0 0 c
    simpa using this
  rw [h0] at h
  have hs : ∑ k ∈ fixed.toFinset, L.residual t u 0 k * C73.shift L.B c k = ∑ k, L.residual t u 0 k * C73.shift L.B c k := by
    refine sum_subset (subset_univ _) fun k _ hk => ?_
    have := congrFun hr k
    unfold Loaded.staticResidual at this
    rw [if_neg (by simpa using hk)] at this
    rw [this, Pi.zero_apply, zero_mul]
  rw [hs, h]
  ring

/-- The field of a rotation in the plane of `i` and `j` about the origin, at the places `x`. -/
def turn {n : ℕ} (x : ℕ → ℕ → Fin n → ℝ) (i j : Fin n) : ℕ → ℕ → Fin n → ℝ := fun e Q k => (if k = j then x e Q i else 0) - if k = i then x e Q j else 0

/-- Moment of the body forces and of the loads about the origin, at the places `x` of the nodes. -/
def bodyMoment (L : Loaded d) (s : Shapes) (t : ℝ) (x : L.B.S.Nodal) (i j : Fin d.n) : ℝ :=
  (L.B.forces.map fun f => C73.integral L.B s f.elements fun ee Q =>
    C71.value L.B.S s x ee.1 Q i * f.value t (ee.2 * L.B.S.E.npts + Q) j - C71.value L.B.S s x ee.1 Q j * f.value t (ee.2 * L.B.S.E.npts + Q) i).sum
def torque (L : Loaded d) (sF : Shapes) (t : ℝ) (u : Ode.Vec L.B.N) (x : L.B.S.Nodal) (i j : Fin d.n) : ℝ :=
  (L.loads.map (work L.F sF L.B.S.pos L.B.S.on t (L.B.nodal u) (turn (val L.F sF x) i j))).sum

theorem val_spin (x : L.B.S.Nodal) (i j : Fin d.n) (e Q : ℕ) : val L.F sF (C71.spin x i j) e Q = turn (val L.F sF x) i j e Q := by
  funext k
  unfold turn val C71.spin
  split_ifs <;> simp [sub_mul, sum_sub_distrib]

/-- **C75, balance of moments** about the origin.  With symmetric stresses the moments of the residual at the current places of the nodes (the reference places if
geometric nonlinearities are off) add up to the rate of angular momentum minus the moments of body forces and loads. -/
theorem C75_moment (hm : C71.Meaning L.B.S s) (hn : C71.Nondegenerate L.B.S s) (hf : C73.Domains L.B) (hF : Meaning L.F sF d) (hl : AllGood L sF)
    (X : L.B.S.Nodal) (hX : C71.Positions L.B.S s X) (hs : C71.Symmetric L.B.S) (t : ℝ) (u a : Ode.Vec L.B.N) (hd : C73.Defined L.B s u) (i j : Fin d.n) :
    let x : L.B.S.Nodal := fun n k => X n k + if L.B.S.on then L.B.nodal u n k else 0
    ∑ n, (x n i * L.B.nodal (L.residual t u a) n j - x n j * L.B.nodal (L.residual t u a) n i) =
      C73.integral L.B s L.B.S.elements (fun ee Q => L.B.S.density * (C71.value L.B.S s x ee.1 Q i * C73.val L.B s a ee.1 Q j -
        C71.value L.B.S s x ee.1 Q j * C73.val L.B s a ee.1 Q i)) - bodyMoment L s t x i j - torque L sF t u x i j := by
  intro x
  obtain ⟨P, hP⟩ := hd
  let v : Ode.Vec L.B.N := L.B.vector (C71.spin x i j)
  have hv : L.B.nodal v = C71.spin x i j := by
    funext n k
    change L.B.nodal (L.B.vector _) n k = _
    unfold Body.nodal Body.vector
    rw [Equiv.symm_apply_apply]
  have h := C75_weak_form hm hn hf hF hl t u a v P hP
  have hlhs : ∑ k, L.residual t u a k * v k = ∑ n, (x n i * L.B.nodal (L.residual t u a) n j - x n j * L.B.nodal (L.residual t u a) n i) := by
    rw [← C71.spin_dot, ← hv, ← C73.vector_dot]
    refine sum_congr rfl fun k _ => ?_
    congr 1
    unfold Body.vector Body.nodal
    simp
  have hst : C73.integral L.B s L.B.S.elements (fun ee Q => ∑ k, ∑ l, P ee Q k l * C73.grd L.B s v ee.1 Q k l) = 0 := by
    refine (C73.integral_congr (g := fun _ _ => 0) fun ee hee Q hQ => ?_).trans (C73.integral_zero _)
    have he := mem_zipIdx_fst hee
    have hsym : P ee Q * (C71.grad L.B.S s x ee.1 Q)ᵀ = C71.grad L.B.S s x ee.1 Q * (P ee Q)ᵀ := by
      have h2 := hP ee hee Q hQ
      cases hon : L.B.S.on with
      | true =>
        have h1 : C71.grad L.B.S s x ee.1 Q = 1 + C71.grad L.B.S s (L.B.nodal u) ee.1 Q := by
          rw [← C71.grad_position hn hX he hQ]
          unfold C71.grad
          rw [show x = fun n k => X n k + L.B.nodal u n k by funext n k; simp [x, hon], C71.parGrad_add, Matrix.add_mul]
        rw [h1]
        rw [hon] at h2
        unfold Piola.materialFlux at h2
        obtain ⟨σ, h3, h4⟩ := Option.bind_eq_some_iff.1 h2
        exact C33.C33_angular (C71.ops_exact d) σ _ _ (hs _ _ _ h3) h4
      | false =>
        rw [show x = X by funext n k; simp [x, hon], C71.grad_position hn hX he hQ]
        rw [hon] at h2
        unfold Piola.materialFlux at h2
        obtain ⟨σ, h3, h4⟩ := Option.bind_eq_some_iff.1 h2
        rw [C33.C33_flux_off (C71.ops_exact d)] at h4
        obtain rfl := Option.some.inj h4
        rw [Matrix.transpose_one, Matrix.mul_one, Matrix.one_mul, hs _ _ _ h3]
    have h1 : ∑ k, ∑ l, P ee Q k l * C73.grd L.B s v ee.1 Q k l = (P ee Q * (C71.grad L.B.S s x ee.1 Q)ᵀ) j i - (P ee Q * (C71.grad L.B.S s x ee.1 Q)ᵀ) i j := by
      simp only [C73.grd, hv, C71.grad_spin, mul_sub, sum_sub_distrib, mul_ite, mul_zero, Matrix.mul_apply, Matrix.transpose_apply]
      congr 1
      · rw [sum_comm]
        exact sum_congr rfl fun l _ => by simp
      · rw [sum_comm]
        exact sum_congr rfl fun l _ => by simp
    have h2 : (P ee Q * (C71.grad L.B.S s x ee.1 Q)ᵀ) j i = (P ee Q * (C71.grad L.B.S s x ee.1 Q)ᵀ) i j := by
      conv_lhs => rw [hsym]
      simp only [Matrix.mul_apply, Matrix.transpose_apply]
      exact sum_congr rfl fun l _ => mul_comm _ _
    rw [h1, h2, sub_self]
  have hdot : ∀ (w : Fin d.n → ℝ) (e Q : ℕ), ∑ k, w k * C73.val L.B s v e Q k = C71.value L.B.S s x e Q i * w j - C71.value L.B.S s x e Q j * w i := by
    intro w e Q
    simp only [C73.val, hv, C71.value_spin, mul_sub, sum_sub_distrib, mul_ite, mul_zero, sum_ite_eq', mem_univ, if_true]
    ring
  have hin : C73.inertia L.B s a v = C73.integral L.B s L.B.S.elements (fun ee Q => L.B.S.density * (C71.value L.B.S s x ee.1 Q i * C73.val L.B s a ee.1 Q j -
        C71.value L.B.S s x ee.1 Q j * C73.val L.B s a ee.1 Q i)) := by
    unfold C73.inertia
    exact C73.integral_congr fun ee _ Q _ => by rw [hdot]
  have hlo : C73.load L.B s t v = bodyMoment L s t x i j := by
    unfold C73.load bodyMoment
    congr 1
    exact List.map_congr_left fun f _ => C73.integral_congr fun ee _ Q _ => by rw [hdot]
  have hex : external L sF t u v = torque L sF t u x i j := by
    unfold external torque
    rw [hv]
    congr 1
    exact List.map_congr_left fun l _ => work_congr _ _ _ _ (fun e Q _ => val_spin x i j e Q) l
  rw [← hlhs, h, hst, hin, hlo, hex, add_zero]

end Balance

/-! ### Uniform pressure on closed surfaces -/

section Closed
variable {nn ng : ℕ} {F : Faces nn ng} {s : Shapes}

/-- Linear triangles: derivatives of the shape functions, and a rule that integrates the shape functions. -/
structure Triangles (F : Faces nn ng) (s : Shapes) : Prop where
  ndof : F.E.ndof = 3
  first : ∀ Q < F.E.npts, s.dphi Q 0 0 = -1 ∧ s.dphi Q 1 0 = 1 ∧ s.dphi Q 2 0 = 0
  second : ∀ Q < F.E.npts, s.dphi Q 0 1 = -1 ∧ s.dphi Q 1 1 = 0 ∧ s.dphi Q 2 1 = 1
  mass : ∀ a < 3, ∑ Q ∈ range F.E.npts, s.wt Q * s.phi Q a = 1 / 6

/-- The corners of the faces of a list. -/
def corners (F : Faces nn ng) (l : List ℕ) : List (Fin nn × Fin nn × Fin nn) := l.map fun e => (F.conn e 0, F.conn e 1, F.conn e 2)

/-- The places of the nodes that the pressure sees. -/
def seen {n : ℕ} (on : Bool) (X u : Fin nn → Vec ℝ n) : Fin nn → Vec ℝ n := fun m k => X m k + if on then u m k else 0

theorem der_seen {d : Dim} {pos : Fin ng → Vec ℝ d.n} {X : Fin nn → Vec ℝ d.n} (hX : Positions F s pos X) (on : Bool) (u : Fin nn → Vec ℝ d.n) (e : ℕ) {Q : ℕ}
    (hQ : Q < F.E.npts) : (tangents F s pos e Q + if on then der F s d u e Q else 0) = der F s d (seen on X u) e Q := by
  rw [hX e Q hQ]
  funext i k
  cases on <;> simp [der, seen, add_mul, sum_add_distrib]

theorem sum_zipIdx {A : Type} (l : List A) (f : A → ℝ) (m : ℕ) : ((l.zipIdx m).map fun ee => f ee.1).sum = (l.map f).sum := by
  induction l generalizing m with
  | nil => rfl
  | cons a l ih => simp [ih]

theorem sum_map_congr {A : Type} (l : List A) {f g : A → ℝ} (h : ∀ a ∈ l, f a = g a) : (l.map f).sum = (l.map g).sum := by
  rw [List.map_congr_left h]

theorem uniform_work {d : Dim} {pos : Fin ng → Vec ℝ d.n} {X : Fin nn → Vec ℝ d.n} (hX : Positions F s pos X) (on : Bool) (t p : ℝ) (u v : Fin nn → Vec ℝ d.n) (l : List ℕ) :
    work F s pos on t u (val F s v) (.pressure l fun _ _ => p) =
      -(p * (l.map fun e => ∑ Q ∈ range F.E.npts, s.wt Q * ∑ i, area d (der F s d (seen on X u) e Q) i * val F s v e Q i).sum) := by
  rw [← List.sum_map_mul_left, List.sum_neg, List.map_map, ← sum_zipIdx l _ 0]
  refine sum_map_congr _ fun ee _ => ?_
  rw [Function.comp_apply, mul_sum, ← sum_neg_distrib]
  refine sum_congr rfl fun Q hQ => ?_
  beta_reduce
  rw [der_seen hX on u ee.1 (mem_range.1 hQ)]
  ring

/-- On linear triangles the work of a uniform pressure is minus that of C65. -/
theorem triangles_work (ht : Triangles F s) {pos : Fin ng → Vec ℝ 3} {X : Fin nn → Vec ℝ 3} (hX : Positions (d := .three) F s pos X) (on : Bool) (t p : ℝ)
    (u v : Fin nn → Vec ℝ 3) (l : List ℕ) :
    work (d := .three) F s pos on t u (val F s v) (.pressure l fun _ _ => p) =
      -C65.work (fun _ : Fin 1 => 1 / 2) (fun _ _ => 1 / 3) p (corners F l) (seen on X u) v := by
  rw [uniform_work hX]
  unfold C65.work corners
  rw [List.map_map, ← List.sum_map_mul_left]
  refine congrArg _ (sum_map_congr _ fun e _ => ?_)
  rw [Function.comp_apply]
  have hA : ∀ Q < F.E.npts, area .three (der F s .three (seen on X u) e Q) =
      crossCols (C65.tangents (seen on X u (F.conn e 0)) (seen on X u (F.conn e 1)) (seen on X u (F.conn e 2))) := by
    intro Q hQ
    rw [← cross_three]
    congr 1
    funext i k
    obtain ⟨a0, a1, a2⟩ := ht.first Q hQ
    obtain ⟨b0, b1, b2⟩ := ht.second Q hQ
    unfold der C65.tangents
    rw [ht.ndof]
    change Fin 2 at k
    fin_cases k
    · simp [sum_range_succ, a0, a1, a2]
      ring
    · simp [sum_range_succ, b0, b1, b2]
      ring
  dsimp only
  simp only [C65.nodal_eq (fun _ : Fin 1 => (1 / 2 : ℝ)) (fun _ _ => 1 / 3) (by intro k; norm_num)]
  generalize hG : crossCols (C65.tangents (seen on X u (F.conn e 0)) (seen on X u (F.conn e 1)) (seen on X u (F.conn e 2))) = A at hA
  have m := ht.mass
  have e1 : ∑ Q ∈ range F.E.npts, s.wt Q * ∑ i : Fin 3, area .three (der F s .three (seen on X u) e Q) i * val F s v e Q i =
      ∑ i : Fin 3, A i * ∑ a ∈ range 3, (∑ Q ∈ range F.E.npts, s.wt Q * s.phi Q a) * v (F.conn e a) i := by
    have : ∀ Q ∈ range F.E.npts, s.wt Q * ∑ i : Fin 3, area .three (der F s .three (seen on X u) e Q) i * val F s v e Q i =
        ∑ i : Fin 3, A i * ∑ a ∈ range 3, s.wt Q * s.phi Q a * v (F.conn e a) i := by
      intro Q hQ
      rw [hA Q (mem_range.1 hQ), mul_sum]
      refine sum_congr rfl fun i _ => ?_
      unfold val
      rw [ht.ndof]
      simp only [mul_sum]
      exact sum_congr rfl fun a _ => by ring
    rw [sum_congr rfl this, sum_comm]
    refine sum_congr rfl fun i _ => ?_
    rw [← mul_sum, sum_comm]
    simp only [sum_mul]
  refine (congrArg (p * ·) e1).trans ?_
  simp only [sum_range_succ, sum_range_zero, m 0 (by norm_num), m 1 (by norm_num), m 2 (by norm_num), Fin.sum_univ_three, Pi.smul_apply, smul_eq_mul,
    Matrix.cons_val_zero, Matrix.cons_val_one, Matrix.cons_val]
  ring

/-- **C75, closed surfaces in space.**  A uniform pressure on a closed surface of linear triangles has no resultant and no moment about any point, and its virtual
work is minus pressure times the change of the enclosed volume: it has a potential.  This holds for the current surface, or the undeformed one if geometric
nonlinearities are off. -/
theorem C75_closed (ht : Triangles F s) {pos : Fin ng → Vec ℝ 3} {X : Fin nn → Vec ℝ 3} (hX : Positions (d := .three) F s pos X) (on : Bool) (t p : ℝ)
    (u : Fin nn → Vec ℝ 3) (l : List ℕ) (hc : C65.Closed (corners F l)) :
    (∀ c : Fin 3 → ℝ, work (d := .three) F s pos on t u (val F s fun _ => c) (.pressure l fun _ _ => p) = 0) ∧
    (∀ ω o : Fin 3 → ℝ, work (d := .three) F s pos on t u (val F s fun m => cross ω (seen on X u m - o)) (.pressure l fun _ _ => p) = 0) ∧
    (on = true → ∀ v : Fin nn → Vec ℝ 3, HasDerivAt (fun r : ℝ => -(p * (C65.volume6 (corners F l) (fun m => X m + (u m + r • v m)) / 6)))
      (work (d := .three) F s pos on t u (val F s v) (.pressure l fun _ _ => p)) 0) := by
  have hw : ∀ k : Fin 3, ∑ q : Fin 1, (fun _ : Fin 1 => (1 / 2 : ℝ)) q * (fun _ _ => 1 / 3 : Fin 1 → Fin 3 → ℝ) q k = 1 / 6 := by
    intro k
    norm_num
  refine ⟨fun c => ?_, fun ω o => ?_, fun hon v => ?_⟩
  · rw [triangles_work ht hX, neg_eq_zero]
    have h := fun i => C65.C65_force (fun _ : Fin 1 => (1 / 2 : ℝ)) (fun _ _ => 1 / 3) hw p _ hc (seen on X u) i
    have : C65.work (fun _ : Fin 1 => 1 / 2) (fun _ _ => 1 / 3) p (corners F l) (seen on X u) (fun _ => c) =
        ∑ i : Fin 3, c i * ((corners F l).map fun t => ∑ k, C65.nodal (fun _ : Fin 1 => 1 / 2) (fun _ _ => 1 / 3) p (seen on X u t.1) (seen on X u t.2.1)
          (seen on X u t.2.2) k i).sum := by
      unfold C65.work
      simp only [← List.sum_map_mul_left]
      generalize corners F l = T
      induction T with
      | nil => simp
      | cons a T ih =>
        simp only [List.map_cons, List.sum_cons, ih, sum_add_distrib]
        congr 1
        simp only [mul_sum]
        rw [sum_comm]
        refine sum_congr rfl fun i _ => sum_congr rfl fun k _ => ?_
        fin_cases k <;> simp [mul_comm]
    rw [this]
    exact sum_eq_zero fun i _ => by rw [h i, mul_zero]
  · rw [triangles_work ht hX, neg_eq_zero]
    have h := fun i => C65.C65_moment (fun _ : Fin 1 => (1 / 2 : ℝ)) (fun _ _ => 1 / 3) hw p _ hc (seen on X u) o i
    have : C65.work (fun _ : Fin 1 => 1 / 2) (fun _ _ => 1 / 3) p (corners F l) (seen on X u) (fun m => cross ω (seen on X u m - o)) =
        ∑ i : Fin 3, ω i * ((corners F l).map fun t => ∑ k, cross (![seen on X u t.1, seen on X u t.2.1, seen on X u t.2.2] k - o)
          (C65.nodal (fun _ : Fin 1 => 1 / 2) (fun _ _ => 1 / 3) p (seen on X u t.1) (seen on X u t.2.1) (seen on X u t.2.2) k) i).sum := by
      unfold C65.work
      simp only [← List.sum_map_mul_left]
      generalize corners F l = T
      induction T with
      | nil => simp
      | cons a T ih =>
        simp only [List.map_cons, List.sum_cons, ih, sum_add_distrib]
        congr 1
        simp only [mul_sum]
        rw [sum_comm]
        have hk : ∀ (x f : Fin 3 → ℝ), ∑ i, f i * cross ω (x - o) i = ∑ i, ω i * cross (x - o) f i := by
          intro x f
          simp only [Fin.sum_univ_three]
          simp [cross]
          ring
        rw [sum_comm]
        rw [sum_comm (f := fun i k => ω i * _)]
        refine sum_congr rfl fun k _ => ?_
        rw [← hk]
        fin_cases k <;> rfl
    rw [this]
    exact sum_eq_zero fun i _ => by rw [h i, mul_zero]
  · rw [triangles_work ht hX]
    have h := (C65.C65_conservative (fun _ : Fin 1 => (1 / 2 : ℝ)) (fun _ _ => 1 / 3) hw p _ hc (seen on X u) v 0).neg
    have e1 : (fun m => seen on X u m + (0 : ℝ) • v m) = seen on X u := by
      funext m
      rw [zero_smul, add_zero]
    rw [e1] at h
    have e2 : ∀ r : ℝ, (fun m => seen on X u m + r • v m) = fun m => X m + (u m + r • v m) := by
      intro r
      funext m k
      simp [seen, hon, add_assoc]
    simp only [e2] at h
    exact h

/-- Line elements of any order from node `a` to node `b` with a rule that integrates the derivatives of products of shape functions. -/
structure Lines (F : Faces nn ng) (s : Shapes) (a b : ℕ) : Prop where
  first : a < F.E.ndof
  last : b < F.E.ndof
  exact : ∀ i < F.E.ndof, ∀ j < F.E.ndof, ∑ Q ∈ range F.E.npts, s.wt Q * (s.phi Q i * s.dphi Q j 0 + s.dphi Q i 0 * s.phi Q j) =
    (if i = b ∧ j = b then 1 else 0) - if i = a ∧ j = a then 1 else 0

/-- Every node is the start of as many lines of the list as it is the end. -/
def ClosedLine (F : Faces nn ng) (a b : ℕ) (l : List ℕ) : Prop := ∀ w : Fin nn → ℝ, (l.map fun e => w (F.conn e b) - w (F.conn e a)).sum = 0

/-- Value and derivative of one component along a line. -/
def along (F : Faces nn ng) (s : Shapes) (f : Fin nn → ℝ) (e Q : ℕ) : ℝ := ∑ a ∈ range F.E.ndof, f (F.conn e a) * s.phi Q a
def slope (F : Faces nn ng) (s : Shapes) (f : Fin nn → ℝ) (e Q : ℕ) : ℝ := ∑ a ∈ range F.E.ndof, f (F.conn e a) * s.dphi Q a 0

/-- The area inside the line. -/
def enclosed (F : Faces nn ng) (s : Shapes) (l : List ℕ) (x : Fin nn → Vec ℝ 2) : ℝ := 1 / 2 * (l.map fun e => ∑ Q ∈ range F.E.npts, s.wt Q *
  (along F s (fun m => x m 0) e Q * slope F s (fun m => x m 1) e Q - along F s (fun m => x m 1) e Q * slope F s (fun m => x m 0) e Q)).sum

/-- Integration by parts. -/
theorem by_parts {a b : ℕ} (h : Lines F s a b) (f g : Fin nn → ℝ) (e : ℕ) :
    ∑ Q ∈ range F.E.npts, s.wt Q * (along F s f e Q * slope F s g e Q + slope F s f e Q * along F s g e Q) =
      f (F.conn e b) * g (F.conn e b) - f (F.conn e a) * g (F.conn e a) := by
  have e1 : ∀ Q ∈ range F.E.npts, s.wt Q * (along F s f e Q * slope F s g e Q + slope F s f e Q * along F s g e Q) =
      ∑ i ∈ range F.E.ndof, ∑ j ∈ range F.E.ndof, f (F.conn e i) * g (F.conn e j) * (s.wt Q * (s.phi Q i * s.dphi Q j 0 + s.dphi Q i 0 * s.phi Q j)) := by
    intro Q _
    unfold along slope
    rw [sum_mul_sum, sum_mul_sum, ← sum_add_distrib, mul_sum]
    refine sum_congr rfl fun i _ => ?_
    rw [← sum_add_distrib, mul_sum]
    exact sum_congr rfl fun j _ => by ring
  rw [sum_congr rfl e1, sum_comm]
  rw [sum_congr rfl fun i _ => sum_comm]
  have e2 : ∀ i ∈ range F.E.ndof, ∀ j ∈ range F.E.ndof, ∑ Q ∈ range F.E.npts, f (F.conn e i) * g (F.conn e j) *
      (s.wt Q * (s.phi Q i * s.dphi Q j 0 + s.dphi Q i 0 * s.phi Q j)) =
      (if i = b then if j = b then f (F.conn e i) * g (F.conn e j) else 0 else 0) - if i = a then if j = a then f (F.conn e i) * g (F.conn e j) else 0 else 0 := by
    intro i hi j hj
    rw [← mul_sum, h.exact i (mem_range.1 hi) j (mem_range.1 hj), mul_sub]
    congr 1
    · by_cases h1 : i = b <;> by_cases h2 : j = b <;> simp [h1, h2]
    · by_cases h1 : i = a <;> by_cases h2 : j = a <;> simp [h1, h2]
  rw [sum_congr rfl fun i hi => sum_congr rfl fun j hj => e2 i hi j hj]
  simp only [sum_sub_distrib]
  have e3 : ∀ c < F.E.ndof, ∑ i ∈ range F.E.ndof, ∑ j ∈ range F.E.ndof, (if i = c then if j = c then f (F.conn e i) * g (F.conn e j) else 0 else 0) =
      f (F.conn e c) * g (F.conn e c) := by
    intro c hc
    rw [sum_eq_single_of_mem c (mem_range.2 hc) fun i _ hi => by simp [hi], sum_eq_single_of_mem c (mem_range.2 hc) fun j _ hj => by simp [hj]]
    simp
  rw [e3 b h.last, e3 a h.first]

/-- The sum of the derivatives of products over a closed line is zero. -/
theorem closed_parts {a b : ℕ} (h : Lines F s a b) {l : List ℕ} (hc : ClosedLine F a b l) (f g : Fin nn → ℝ) :
    (l.map fun e => ∑ Q ∈ range F.E.npts, s.wt Q * (along F s f e Q * slope F s g e Q + slope F s f e Q * along F s g e Q)).sum = 0 := by
  rw [sum_map_congr l fun e _ => by_parts h f g e]
  exact hc fun m => f m * g m

theorem line_work {pos : Fin ng → Vec ℝ 2} {X : Fin nn → Vec ℝ 2} (hX : Positions (d := .two) F s pos X) (on : Bool) (t p : ℝ) (u v : Fin nn → Vec ℝ 2) (l : List ℕ) :
    work (d := .two) F s pos on t u (val F s v) (.pressure l fun _ _ => p) = -(p * (l.map fun e => ∑ Q ∈ range F.E.npts, s.wt Q *
      (slope F s (fun m => seen on X u m 1) e Q * along F s (fun m => v m 0) e Q - slope F s (fun m => seen on X u m 0) e Q * along F s (fun m => v m 1) e Q)).sum) := by
  rw [uniform_work hX]
  refine congrArg (fun x => -(p * x)) (sum_map_congr _ fun e _ => sum_congr rfl fun Q _ => ?_)
  congr 1
  change ∑ i : Fin 2, area .two (der F s .two (seen on X u) e Q) i * val F s v e Q i = _
  rw [Fin.sum_univ_two]
  change slope F s (fun m => seen on X u m 1) e Q * along F s (fun m => v m 0) e Q + -slope F s (fun m => seen on X u m 0) e Q * along F s (fun m => v m 1) e Q = _
  ring

theorem along_lin (x y : ℝ) (f g : Fin nn → ℝ) (e Q : ℕ) : along F s (fun m => x * f m + y * g m) e Q = x * along F s f e Q + y * along F s g e Q := by
  unfold along
  rw [mul_sum, mul_sum, ← sum_add_distrib]
  exact sum_congr rfl fun a _ => by ring

theorem slope_lin (x y : ℝ) (f g : Fin nn → ℝ) (e Q : ℕ) : slope F s (fun m => x * f m + y * g m) e Q = x * slope F s f e Q + y * slope F s g e Q := by
  unfold slope
  rw [mul_sum, mul_sum, ← sum_add_distrib]
  exact sum_congr rfl fun a _ => by ring

theorem sum_lin (l : List ℕ) (x y : ℝ) (f g : ℕ → ℕ → ℝ) (n : ℕ) (w : ℕ → ℝ) : (l.map fun e => ∑ Q ∈ range n, w Q * (x * f e Q + y * g e Q)).sum =
    x * (l.map fun e => ∑ Q ∈ range n, w Q * f e Q).sum + y * (l.map fun e => ∑ Q ∈ range n, w Q * g e Q).sum := by
  rw [← List.sum_map_mul_left, ← List.sum_map_mul_left, ← List.sum_map_add]
  refine sum_map_congr _ fun e _ => ?_
  rw [mul_sum, mul_sum, ← sum_add_distrib]
  exact sum_congr rfl fun Q _ => by ring

/-- **C75, closed lines in the plane.**  The same for lines of elements of any order that bound a plane body, with the enclosed area. -/
theorem C75_closed_plane {a b : ℕ} (h : Lines F s a b) (hu : Unity F s .two) {pos : Fin ng → Vec ℝ 2} {X : Fin nn → Vec ℝ 2} (hX : Positions (d := .two) F s pos X)
    (on : Bool) (t p : ℝ) (u : Fin nn → Vec ℝ 2) (l : List ℕ) (hc : ClosedLine F a b l) :
    (∀ c : Fin 2 → ℝ, work (d := .two) F s pos on t u (val F s fun _ => c) (.pressure l fun _ _ => p) = 0) ∧
    (∀ o : Fin 2 → ℝ, work (d := .two) F s pos on t u (val F s fun m => ![-(seen on X u m 1 - o 1), seen on X u m 0 - o 0]) (.pressure l fun _ _ => p) = 0) ∧
    (on = true → ∀ v : Fin nn → Vec ℝ 2, HasDerivAt (fun r : ℝ => -(p * enclosed F s l fun m => X m + (u m + r • v m)))
      (work (d := .two) F s pos on t u (val F s v) (.pressure l fun _ _ => p)) 0) := by
  have hone : ∀ c : ℝ, ∀ e, ∀ Q ∈ range F.E.npts, along F s (fun _ => c) e Q = c ∧ slope F s (fun _ => c) e Q = 0 := by
    intro c e Q hQ
    obtain ⟨h1, h2⟩ := hu Q (mem_range.1 hQ)
    unfold along slope
    rw [← mul_sum, ← mul_sum, h1]
    have := h2 0
    rw [show ((0 : Fin (faceDim .two)) : ℕ) = 0 from rfl] at this
    rw [this, mul_one, mul_zero]
    exact ⟨rfl, rfl⟩
  have hforce : ∀ c : Fin 2 → ℝ, work (d := .two) F s pos on t u (val F s fun _ => c) (.pressure l fun _ _ => p) = 0 := by
    intro c
    rw [line_work hX]
    have h1 := closed_parts h hc (fun m => seen on X u m 1) fun _ => c 0
    have h2 := closed_parts h hc (fun m => seen on X u m 0) fun _ => c 1
    have h3 := sum_lin l 1 (-1) (fun e Q => along F s (fun m => seen on X u m 1) e Q * slope F s (fun _ => c 0) e Q + slope F s (fun m => seen on X u m 1) e Q * along F s (fun _ => c 0) e Q)
      (fun e Q => along F s (fun m => seen on X u m 0) e Q * slope F s (fun _ => c 1) e Q + slope F s (fun m => seen on X u m 0) e Q * along F s (fun _ => c 1) e Q) F.E.npts s.wt
    rw [h1, h2] at h3
    rw [sum_map_congr l (g := _) fun e _ => sum_congr rfl fun Q hQ => ?_, h3]
    · ring
    · rw [(hone (c 0) e Q hQ).2, (hone (c 1) e Q hQ).2]
      ring
  refine ⟨hforce, fun o => ?_, fun hon v => ?_⟩
  · rw [line_work hX]
    have h1 := closed_parts h hc (fun m => seen on X u m 1) fun m => seen on X u m 1
    have h2 := closed_parts h hc (fun m => seen on X u m 0) fun m => seen on X u m 0
    have h4 := hforce ![o 1, -o 0]
    rw [line_work hX, neg_eq_zero] at h4
    have h3 := sum_lin l (-(1 / 2)) (-(1 / 2)) (fun e Q => along F s (fun m => seen on X u m 1) e Q * slope F s (fun m => seen on X u m 1) e Q +
        slope F s (fun m => seen on X u m 1) e Q * along F s (fun m => seen on X u m 1) e Q)
      (fun e Q => along F s (fun m => seen on X u m 0) e Q * slope F s (fun m => seen on X u m 0) e Q + slope F s (fun m => seen on X u m 0) e Q * along F s (fun m => seen on X u m 0) e Q) F.E.npts s.wt
    rw [h1, h2] at h3
    simp only [mul_zero, add_zero] at h3
    have h5 := sum_lin l 1 1 (fun e Q => -(1 / 2) * (along F s (fun m => seen on X u m 1) e Q * slope F s (fun m => seen on X u m 1) e Q +
        slope F s (fun m => seen on X u m 1) e Q * along F s (fun m => seen on X u m 1) e Q) + -(1 / 2) *
      (along F s (fun m => seen on X u m 0) e Q * slope F s (fun m => seen on X u m 0) e Q + slope F s (fun m => seen on X u m 0) e Q * along F s (fun m => seen on X u m 0) e Q))
      (fun e Q => slope F s (fun m => seen on X u m 1) e Q * along F s (fun _ => (![o 1, -o 0] : Fin 2 → ℝ) 0) e Q -
        slope F s (fun m => seen on X u m 0) e Q * along F s (fun _ => (![o 1, -o 0] : Fin 2 → ℝ) 1) e Q) F.E.npts s.wt
    rw [h3, mul_zero, zero_add, one_mul] at h5
    have h6 : p * _ = p * _ := congrArg (p * ·) h5
    rw [h4] at h6
    rw [neg_eq_zero, ← h6]
    refine congrArg (p * ·) (sum_map_congr _ fun e _ => sum_congr rfl fun Q hQ => ?_)
    have a1 : along F s (fun m => (![-(seen on X u m 1 - o 1), seen on X u m 0 - o 0] : Fin 2 → ℝ) 0) e Q = -along F s (fun m => seen on X u m 1) e Q + o 1 := by
      have := along_lin (F := F) (s := s) (-1) 1 (fun m => seen on X u m 1) (fun _ => o 1) e Q
      rw [(hone _ e Q hQ).1] at this
      rw [show (fun m => (![-(seen on X u m 1 - o 1), seen on X u m 0 - o 0] : Fin 2 → ℝ) 0) = fun m => -1 * seen on X u m 1 + 1 * o 1 by funext m; simp; ring, this]
      ring
    have a2 : along F s (fun m => (![-(seen on X u m 1 - o 1), seen on X u m 0 - o 0] : Fin 2 → ℝ) 1) e Q = along F s (fun m => seen on X u m 0) e Q - o 0 := by
      have := along_lin (F := F) (s := s) 1 (-1) (fun m => seen on X u m 0) (fun _ => o 0) e Q
      rw [(hone _ e Q hQ).1] at this
      rw [show (fun m => (![-(seen on X u m 1 - o 1), seen on X u m 0 - o 0] : Fin 2 → ℝ) 1) = fun m => 1 * seen on X u m 0 + -1 * o 0 by funext m; simp; ring, this]
      ring
    rw [a1, a2, (hone _ e Q hQ).1, (hone _ e Q hQ).1]
    simp only [Matrix.cons_val_zero, Matrix.cons_val_one]
    ring
  · rw [line_work hX]
    let x : Fin nn → Vec ℝ 2 := fun m => X m + u m
    have hx : seen on X u = x := by
      funext m k
      simp [seen, hon, x]
    have hder : HasDerivAt (fun r : ℝ => enclosed F s l fun m => X m + (u m + r • v m)) (1 / 2 * (l.map fun e => ∑ Q ∈ range F.E.npts, s.wt Q *
        ((along F s (fun m => v m 0) e Q * slope F s (fun m => x m 1) e Q + along F s (fun m => x m 0) e Q * slope F s (fun m => v m 1) e Q) -
          (along F s (fun m => v m 1) e Q * slope F s (fun m => x m 0) e Q + along F s (fun m => x m 1) e Q * slope F s (fun m => v m 0) e Q))).sum) 0 := by
      unfold enclosed
      refine HasDerivAt.const_mul _ ?_
      refine C65.hasDerivAt_sum l _ _ 0 fun e _ => HasDerivAt.fun_sum fun Q _ => HasDerivAt.const_mul _ ?_
      have hA : ∀ k : Fin 2, HasDerivAt (fun r : ℝ => along F s (fun m => (X m + (u m + r • v m)) k) e Q) (along F s (fun m => v m k) e Q) 0 := by
        intro k
        have : (fun r : ℝ => along F s (fun m => (X m + (u m + r • v m)) k) e Q) = fun r => along F s (fun m => x m k) e Q + r * along F s (fun m => v m k) e Q := by
          funext r
          have := along_lin (F := F) (s := s) 1 r (fun m => x m k) (fun m => v m k) e Q
          rw [one_mul] at this
          rw [← this]
          congr 1
          funext m
          simp [x, add_assoc]
        rw [this]
        simpa using ((hasDerivAt_id (0 : ℝ)).mul_const (along F s (fun m => v m k) e Q)).const_add (along F s (fun m => x m k) e Q)
      have hS : ∀ k : Fin 2, HasDerivAt (fun r : ℝ => slope F s (fun m => (X m + (u m + r • v m)) k) e Q) (slope F s (fun m => v m k) e Q) 0 := by
        intro k
        have : (fun r : ℝ => slope F s (fun m => (X m + (u m + r • v m)) k) e Q) = fun r => slope F s (fun m => x m k) e Q + r * slope F s (fun m => v m k) e Q := by
          funext r
          have := slope_lin (F := F) (s := s) 1 r (fun m => x m k) (fun m => v m k) e Q
          rw [one_mul] at this
          rw [← this]
          congr 1
          funext m
          simp [x, add_assoc]
        rw [this]
        simpa using ((hasDerivAt_id (0 : ℝ)).mul_const (slope F s (fun m => v m k) e Q)).const_add (slope F s (fun m => x m k) e Q)
      have z : ∀ k : Fin 2, (fun m => (X m + (u m + (0 : ℝ) • v m)) k) = fun m => x m k := by
        intro k
        funext m
        simp [x]
      have := ((hA 0).mul (hS 1)).sub ((hA 1).mul (hS 0))
      simp only [z] at this
      exact this
    have hfin := (hder.const_mul p).neg
    rw [hx]
    refine hfin.congr_deriv ?_
    have h1 := closed_parts h hc (fun m => x m 0) fun m => v m 1
    have h2 := closed_parts h hc (fun m => x m 1) fun m => v m 0
    have h3 := sum_lin l 1 (-1) (fun e Q => along F s (fun m => x m 0) e Q * slope F s (fun m => v m 1) e Q + slope F s (fun m => x m 0) e Q * along F s (fun m => v m 1) e Q)
      (fun e Q => along F s (fun m => x m 1) e Q * slope F s (fun m => v m 0) e Q + slope F s (fun m => x m 1) e Q * along F s (fun m => v m 0) e Q) F.E.npts s.wt
    rw [h1, h2] at h3
    simp only [mul_zero, add_zero] at h3
    have h4 := sum_lin l 1 (1 / 2) (fun e Q => slope F s (fun m => x m 1) e Q * along F s (fun m => v m 0) e Q - slope F s (fun m => x m 0) e Q * along F s (fun m => v m 1) e Q)
      (fun e Q => 1 * (along F s (fun m => x m 0) e Q * slope F s (fun m => v m 1) e Q + slope F s (fun m => x m 0) e Q * along F s (fun m => v m 1) e Q) +
        -1 * (along F s (fun m => x m 1) e Q * slope F s (fun m => v m 0) e Q + slope F s (fun m => x m 1) e Q * along F s (fun m => v m 0) e Q)) F.E.npts s.wt
    rw [h3, mul_zero, add_zero, one_mul] at h4
    have h5 := sum_lin l (1 / 2) 0 (fun e Q => (along F s (fun m => v m 0) e Q * slope F s (fun m => x m 1) e Q + along F s (fun m => x m 0) e Q * slope F s (fun m => v m 1) e Q) -
          (along F s (fun m => v m 1) e Q * slope F s (fun m => x m 0) e Q + along F s (fun m => x m 1) e Q * slope F s (fun m => v m 0) e Q)) (fun _ _ => 0) F.E.npts s.wt
    simp only [zero_mul, add_zero] at h5
    rw [← h5, ← h4]
    refine congrArg (fun x => -(p * x)) (sum_map_congr _ fun e _ => sum_congr rfl fun Q _ => ?_)
    ring

end Closed

/-! ### Potentials -/

section Potential
variable {d : Dim} {L : Loaded d} {s sF : Shapes}

/-- Loads that do not follow the body: tractions, and pressures if geometric nonlinearities are off. -/
def Dead (L : Loaded d) : Prop := ∀ l ∈ L.loads, L.B.S.on = true → ∀ e f, l ≠ .pressure e f

theorem dead_work {nn ng : ℕ} {F : Faces nn ng} {s : Shapes} {pos : Fin ng → Vec ℝ d.n} {on : Bool} {l : Load d} (h : on = true → ∀ e f, l ≠ .pressure e f) (t : ℝ)
    (u u' : Fin nn → Vec ℝ d.n) (w : ℕ → ℕ → Fin d.n → ℝ) : work F s pos on t u w l = work F s pos on t u' w l := by
  cases l with
  | traction l f => rfl
  | pressure l f =>
    cases on with
    | true => exact absurd rfl (h rfl l f)
    | false => simp [work]

theorem val_lin {nn ng : ℕ} {F : Faces nn ng} {s : Shapes} {c : ℕ} (x y : ℝ) (v w : Fin nn → Vec ℝ c) (e Q : ℕ) (i : Fin c) :
    val F s (fun n k => x * v n k + y * w n k) e Q i = x * val F s v e Q i + y * val F s w e Q i := by
  unfold val
  rw [mul_sum, mul_sum, ← sum_add_distrib]
  exact sum_congr rfl fun a _ => by ring

/-- The work of a load is linear in the virtual displacement. -/
theorem work_val_lin {nn ng : ℕ} {F : Faces nn ng} {s : Shapes} (pos : Fin ng → Vec ℝ d.n) (on : Bool) (t : ℝ) (u : Fin nn → Vec ℝ d.n) (x y : ℝ)
    (v w : Fin nn → Vec ℝ d.n) (l : Load d) : work F s pos on t u (val F s fun n k => x * v n k + y * w n k) l =
      x * work F s pos on t u (val F s v) l + y * work F s pos on t u (val F s w) l := by
  rw [← work_lin]
  exact work_congr _ _ _ _ (fun e Q _ => by funext i; exact val_lin x y v w e Q i) l

/-- **C75, dead loads have a potential**: their own work. -/
theorem C75_dead {nn ng : ℕ} {F : Faces nn ng} {s : Shapes} (pos : Fin ng → Vec ℝ d.n) {on : Bool} {l : Load d} (h : on = true → ∀ e f, l ≠ .pressure e f) (t : ℝ)
    (u v : Fin nn → Vec ℝ d.n) :
    HasDerivAt (fun r : ℝ => work F s pos on t u (val F s fun n k => u n k + r * v n k) l) (work F s pos on t u (val F s v) l) 0 ∧
      ∀ u', work F s pos on t u' (val F s v) l = work F s pos on t u (val F s v) l := by
  refine ⟨?_, fun u' => dead_work h t u' u _⟩
  have : (fun r : ℝ => work F s pos on t u (val F s fun n k => u n k + r * v n k) l) =
      fun r => work F s pos on t u (val F s u) l + r * work F s pos on t u (val F s v) l := by
    funext r
    have := work_val_lin (F := F) (s := s) pos on t u 1 r u v l
    simp only [one_mul] at this
    exact this
  rw [this]
  simpa using ((hasDerivAt_id (0 : ℝ)).mul_const (work F s pos on t u (val F s v) l)).const_add (work F s pos on t u (val F s u) l)

/-- **C75, potential energy.**  If the material is hyperelastic and the loads have potentials (`C75_dead`, `C75_closed`, `C75_closed_plane`), the residual at rest is the
derivative of stored energy minus body forces minus potentials of the loads, in every direction. -/
theorem C75_potential (hm : C71.Meaning L.B.S s) (hn : C71.Nondegenerate L.B.S s) (hf : C73.Domains L.B) (hF : Meaning L.F sF d) (hl : AllGood L sF)
    (W : M d.n → ℝ) (hW : ∀ p, C71.Hyperelastic L.B.S.on (L.B.S.material p) W) (t : ℝ) (u v : Ode.Vec L.B.N) (hd : C73.Defined L.B s u) (Φ : Load d → L.B.S.Nodal → ℝ)
    (hΦ : ∀ l ∈ L.loads, HasDerivAt (fun r : ℝ => Φ l fun n k => L.B.nodal u n k + r * L.B.nodal v n k)
      (work L.F sF L.B.S.pos L.B.S.on t (L.B.nodal u) (val L.F sF (L.B.nodal v)) l) 0) :
    HasDerivAt (fun r : ℝ => C71.integral L.B.S s (fun ee Q => W (C71.grad L.B.S s (fun n k => L.B.nodal u n k + r * L.B.nodal v n k) ee.1 Q)) -
      C73.load L.B s t (u + r • v) - (L.loads.map fun l => Φ l fun n k => L.B.nodal u n k + r * L.B.nodal v n k).sum)
      (∑ k, L.residual t u 0 k * v k) 0 := by
  obtain ⟨P, hP⟩ := hd
  have h1 := C71.C71_energy hm hn W hW (L.B.nodal u) (L.B.nodal v) P hP
  have h2 : HasDerivAt (fun r : ℝ => C73.load L.B s t (u + r • v)) (C73.load L.B s t v) 0 := by
    have : (fun r : ℝ => C73.load L.B s t (u + r • v)) = fun r => C73.load L.B s t u + r * C73.load L.B s t v := by
      funext r
      have := C73.load_lin (B := L.B) (s := s) t 1 r u v
      rwa [one_smul, one_mul] at this
    rw [this]
    simpa using ((hasDerivAt_id (0 : ℝ)).mul_const (C73.load L.B s t v)).const_add (C73.load L.B s t u)
  have h3 : HasDerivAt (fun r : ℝ => (L.loads.map fun l => Φ l fun n k => L.B.nodal u n k + r * L.B.nodal v n k).sum) (external L sF t u v) 0 :=
    C65.hasDerivAt_sum L.loads _ _ 0 hΦ
  refine ((h1.sub h2).sub h3).congr_deriv ?_
  rw [C75_weak_form hm hn hf hF hl t u 0 v P hP, C71.C71_virtual_work hm hn _ _ _ P hP]
  have h0 : C73.inertia L.B s 0 v = 0 := by
    have := C73.inertia_lin (B := L.B) (s := s) 0 0 0 0 v
    simpa using this
  rw [h0, zero_add]
  congr 2
  refine C71.integral_congr fun ee _ Q _ => ?_
  simp [C71.value, C73.grd]

end Potential

/-! ### Runs -/

section Runs
variable {d : Dim} {L : Loaded d} {s sF : Shapes}

/-- The equations of motion hold, except at the fixed dofs. -/
def Balanced (L : Loaded d) (fixed : List (Fin L.B.N)) (t : ℝ) (x a : Ode.Vec L.B.N) : Prop := ∀ k ∉ fixed, L.residual t x a k = 0

/-- Assumption on the nonlinear solver, as in C73. -/
structure Solves (L : Loaded d) (s : Shapes) (b : Ode.BCs L.B.N) (solve : Ode.State2 L.B.N → Ode.Vec L.B.N → Ode.Vec L.B.N) : Prop where
  keeps : Ode.Keeps b solve
  root : ∀ st v, 0 ≤ st.c0 → L.accResidual b.allDofs st (solve st v) = 0
  defined : ∀ st v, 0 ≤ st.c0 → C73.Defined L.B s fun k => 1 * st.u k + st.c0 * solve st v k

/-- What is known between steps, as in C73. -/
structure Ready (L : Loaded d) (s : Shapes) (b : Ode.BCs L.B.N) (g : ℝ → Fin L.B.N → ℝ) (r : Ode.Run2 L.B.N) : Prop where
  fixed : ∀ i ∈ b.allDofs, r.x i = g r.t i
  carried : r.first = false → Balanced L b.allDofs r.t r.x r.d2xdt2 ∧ C73.Defined L.B s r.x

variable {b : Ode.BCs L.B.N} {g : ℝ → Fin L.B.N → ℝ} {solve : Ode.State2 L.B.N → Ode.Vec L.B.N → Ode.Vec L.B.N}

theorem stage (h : Solves L s b solve) {m : Ode.Enforce} {st st' : Ode.State2 L.B.N} {time c0 c1 : ℝ} {u du a : Ode.Vec L.B.N} (hc : 0 ≤ c0)
    (hs : Ode.solve2 b m solve st time c0 c1 u du = some (st', a)) (hu : ∀ i ∈ b.allDofs, st'.u i = u i) :
    Balanced L b.allDofs time (u + c0 • a) a ∧ C73.Defined L.B s (u + c0 • a) := by
  obtain ⟨q, v, ha, ht, hc0, hq⟩ := C73.asked hs
  have hall : q.u = u := by
    rw [hq]
    funext i
    by_cases hi : i ∈ b.allDofs
    · exact hu i hi
    · exact (C20.C20_free m solve st st' time c0 c1 u du a hs i hi).1
  have e : (fun k => 1 * q.u k + q.c0 * solve q v k) = u + c0 • a := by
    rw [hall, hc0, ← ha]
    funext k
    simp
  have h1 := h.root q v (by rw [hc0]; exact hc)
  have h2 := h.defined q v (by rw [hc0]; exact hc)
  rw [e] at h2
  refine ⟨fun k hk => ?_, h2⟩
  have := congrFun h1 k
  unfold Loaded.accResidual at this
  rw [if_neg hk, e, ht, ← ha] at this
  exact this

/-- A Newmark step under direct control. -/
theorem newmark_step (h : Solves L s b solve) (hg : Ode.Prescribes b g) {β dt : ℝ} (γ : ℝ) (hβ : 0 < β) (hdt : 0 < dt) {r : Ode.Run2 L.B.N} (hr : Ready L s b g r) :
    ∃ r' a, Ode.step2 b .direct solve β γ dt r = some r' ∧ r'.t = r.t + dt ∧ r'.first = false ∧ Ready L s b g r' ∧
      Balanced L b.allDofs r.t r.x a ∧ C73.Defined L.B s r.x ∧ (r.first = false → a = r.d2xdt2) ∧
      r'.x = r.x + dt • r.dxdt + (dt * dt) • ((1 / 2 - β) • a + β • r'.d2xdt2) ∧ r'.dxdt = r.dxdt + dt • ((1 - γ) • a + γ • r'.d2xdt2) := by
  obtain ⟨st, a, hfirst, hbal, hdef, hcar⟩ : ∃ st a, (if r.first then (Ode.solve2 b .direct solve r.st r.t 0 0 r.x r.dxdt) else some (r.st, r.d2xdt2)) = some (st, a) ∧
      Balanced L b.allDofs r.t r.x a ∧ C73.Defined L.B s r.x ∧ (r.first = false → a = r.d2xdt2) := by
    by_cases hf : r.first = true
    · obtain ⟨st', a, h1, h2⟩ := C20.C20_explicit hg h.keeps .direct r.st r.t r.x r.dxdt
      obtain ⟨h3, h4⟩ := stage h le_rfl h1 fun i hi => by rw [(h2 i hi).1, hr.fixed i hi]
      rw [zero_smul, add_zero] at h3 h4
      exact ⟨st', a, by rw [if_pos hf, h1], h3, h4, fun h => absurd (hf.symm.trans h) (by decide)⟩
    · have hf' : r.first = false := by simpa using hf
      obtain ⟨h3, h4⟩ := hr.carried hf'
      exact ⟨r.st, r.d2xdt2, by rw [if_neg hf], h3, h4, fun _ => rfl⟩
  have hc0 : β * dt * dt ≠ 0 := by positivity
  have hc : ∀ x1 v1 : Ode.Vec L.B.N, Ode.constraint2 b .direct (r.t + dt) (β * dt * dt) (γ * dt) x1 v1 =
      some (x1, v1, fun i => (1 / (β * dt * dt)) * (b.eval (r.t + dt) i - x1 i)) := by
    intro x1 v1
    rw [Ode.constraint2, if_pos (Or.inl hc0)]
    rw [if_neg hc0]
  obtain ⟨st', a', hs, -, -, -, -, hd, -⟩ := Ode.solve2_spec h.keeps st (hc (fun i => r.x i + dt * r.dxdt i + ((1 / 2 - β) * dt * dt) * a i)
    fun i => r.dxdt i + ((1 - γ) * dt) * a i)
  obtain ⟨hb', hd'⟩ := stage h (by positivity) hs fun i hi => (hd i hi).1
  unfold Ode.step2 Ode.newmarkStep
  rw [hfirst, Option.bind_some]
  dsimp only
  rw [hs]
  refine ⟨_, a, rfl, rfl, rfl, ⟨fun i hi => ?_, fun _ => ⟨?_, ?_⟩⟩, hbal, hdef, hcar, ?_, ?_⟩
  · dsimp only [Ode.afterStep]
    rw [(hd i hi).2.2, Ode.eval_mem hg _ hi]
    field_simp
    ring
  · exact hb'
  · exact hd'
  · funext i
    simp [Ode.afterStep]
    ring
  · funext i
    simp [Ode.afterStep]
    ring

/-- **C75, momentum of a step.**  In a Newmark step the momentum of a free body changes by the impulse of body forces and loads, where the loads act on the body as it
is displaced at both ends of the step. -/
theorem C75_momentum_step (hm : C71.Meaning L.B.S s) (hn : C71.Nondegenerate L.B.S s) (hf : C73.Domains L.B) (hu : C71.Unity L.B.S s) (hF : Meaning L.F sF d)
    (hl : AllGood L sF) (huF : Unity L.F sF d) (h : Solves L s b solve) (hg : Ode.Prescribes b g) (hb : b.allDofs = []) {β dt : ℝ} (γ : ℝ) (hβ : 0 < β) (hdt : 0 < dt)
    {r : Ode.Run2 L.B.N} (hr : Ready L s b g r) :
    ∃ r', Ode.step2 b .direct solve β γ dt r = some r' ∧ r'.t = r.t + dt ∧ Ready L s b g r' ∧ ∀ c, C73.total L.B s r'.dxdt c = C73.total L.B s r.dxdt c +
      dt * ((1 - γ) * (C73.resultant L.B s r.t c + thrust L sF r.t r.x c) + γ * (C73.resultant L.B s r'.t c + thrust L sF r'.t r'.x c)) := by
  obtain ⟨r1, a, h1, ht1, hf1, hr1, hbal, hdef, -, -, hv⟩ := newmark_step h hg γ hβ hdt hr
  obtain ⟨hbal1, hdef1⟩ := hr1.carried hf1
  rw [hb] at hbal hbal1
  refine ⟨r1, h1, ht1, hr1, fun c => ?_⟩
  have e0 := C75_newton hm hn hf hu hF hl huF hdef (fun k => hbal k List.not_mem_nil) c
  have e1 := C75_newton hm hn hf hu hF hl huF hdef1 (fun k => hbal1 k List.not_mem_nil) c
  rw [hv, show r.dxdt + dt • ((1 - γ) • a + γ • r1.d2xdt2) = (1 : ℝ) • r.dxdt + dt • ((1 - γ) • a + γ • r1.d2xdt2) by rw [one_smul],
    C73.total_lin, C73.total_lin, e0, e1]
  ring

/-- **C75, momentum of a run.**  If the resultant of the loads does not depend on the displacement (dead loads, closed surfaces), the momentum of a free body changes by
the impulse of body forces and loads over any number of steps of any lengths. -/
theorem C75_momentum (hm : C71.Meaning L.B.S s) (hn : C71.Nondegenerate L.B.S s) (hf : C73.Domains L.B) (hu : C71.Unity L.B.S s) (hF : Meaning L.F sF d)
    (hl : AllGood L sF) (huF : Unity L.F sF d) (h : Solves L s b solve) (hg : Ode.Prescribes b g) (hb : b.allDofs = []) {β : ℝ} (γ : ℝ) (hβ : 0 < β)
    (push : ℝ → (Fin d.n → ℝ) → ℝ) (hp : ∀ t u c, thrust L sF t u c = push t c) (dts : List ℝ) (hdt : ∀ dt ∈ dts, 0 < dt)
    (r : Ode.Run2 L.B.N) (hr : Ready L s b g r) :
    ∃ r', Ode.runSteps (Ode.step2 b .direct solve β γ) dts r = some r' ∧
      ∀ c, C73.total L.B s r'.dxdt c = C73.total L.B s r.dxdt c + C73.impulse γ (fun t => C73.resultant L.B s t c + push t c) r.t dts := by
  induction dts generalizing r with
  | nil => exact ⟨r, rfl, fun c => by simp [C73.impulse]⟩
  | cons dt dts ih =>
    obtain ⟨r1, h1, ht1, hr1, hc1⟩ := C75_momentum_step hm hn hf hu hF hl huF h hg hb γ hβ (hdt dt List.mem_cons_self) hr
    obtain ⟨r2, h2, hc2⟩ := ih (fun x hx => hdt x (List.mem_cons_of_mem _ hx)) r1 hr1
    refine ⟨r2, by rw [Ode.runSteps, h1, Option.bind_some, h2], fun c => ?_⟩
    rw [hc2 c, hc1 c, hp, hp, C73.impulse, ht1]
    ring

theorem dead_external (h : Dead L) (t : ℝ) (u u' v : Ode.Vec L.B.N) : external L sF t u v = external L sF t u' v := by
  unfold external
  congr 1
  exact List.map_congr_left fun l hl => dead_work (h l hl) t _ _ _

/-- Dead loads meet the hypothesis of `C75_momentum`. -/
theorem C75_dead_thrust (h : Dead L) (t : ℝ) (u : Ode.Vec L.B.N) (c : Fin d.n → ℝ) : thrust L sF t u c = thrust L sF t 0 c := by
  unfold thrust
  congr 1
  exact List.map_congr_left fun l hl => dead_work (h l hl) t _ _ _

theorem external_lin (t x y : ℝ) (u v w : Ode.Vec L.B.N) : external L sF t u (x • v + y • w) = x * external L sF t u v + y * external L sF t u w := by
  unfold external
  rw [← List.sum_map_mul_left, ← List.sum_map_mul_left, ← List.sum_map_add]
  refine sum_map_congr _ fun l _ => ?_
  exact work_val_lin _ _ _ _ x y _ _ l

/-- Body forces and loads on the boundary together. -/
def force (L : Loaded d) (s sF : Shapes) (t : ℝ) (v : Ode.Vec L.B.N) : ℝ := C73.load L.B s t v + external L sF t 0 v

theorem force_lin (t x y : ℝ) (v w : Ode.Vec L.B.N) : force L s sF t (x • v + y • w) = x * force L s sF t v + y * force L s sF t w := by
  unfold force
  rw [C73.load_lin, external_lin]
  ring

def forceForm (L : Loaded d) (s sF : Shapes) (t : ℝ) : Ode.Vec L.B.N →ₗ[ℝ] ℝ := C73.toLin (force L s sF t) (force_lin t)

variable {C : ℕ → M d.n →ₗ[ℝ] M d.n}

/-- The residual of an elastic body with dead loads. -/
theorem elastic_tested (hm : C71.Meaning L.B.S s) (hn : C71.Nondegenerate L.B.S s) (hf : C73.Domains L.B) (hF : Meaning L.F sF d) (hl : AllGood L sF) (hD : Dead L)
    (hC : C73.Elastic L.B C) (t : ℝ) (x a v : Ode.Vec L.B.N) :
    ∑ k, L.residual t x a k * v k = C73.inertia L.B s a v + C73.strain L.B s C x v - force L s sF t v := by
  rw [residual_tested hF hl, C73.C73_elastic hm hn hf hC, dead_external hD t x 0, force]
  ring

theorem balanced_tested (hm : C71.Meaning L.B.S s) (hn : C71.Nondegenerate L.B.S s) (hf : C73.Domains L.B) (hF : Meaning L.F sF d) (hl : AllGood L sF) (hD : Dead L)
    (hC : C73.Elastic L.B C) {fixed : List (Fin L.B.N)} {t : ℝ} {x a : Ode.Vec L.B.N} (hb : Balanced L fixed t x a) {v : Ode.Vec L.B.N} (hv : ∀ i ∈ fixed, v i = 0) :
    C73.inertia L.B s a v + C73.strain L.B s C x v = force L s sF t v := by
  have h := elastic_tested hm hn hf hF hl hD hC t x a v
  rw [sum_eq_zero fun k _ => by
    by_cases hk : k ∈ fixed
    · rw [hv k hk, mul_zero]
    · rw [hb k hk, zero_mul]] at h
  linarith

/-- **C75, work.**  In a Newmark step with `γ = 1/2` and resting supports, the energy of an elastic body changes by the work of the mean of body forces and dead loads at
both ends, up to the change of `½ dt² (β - ¼) ∫ ρ a·a`. -/
theorem C75_work (hm : C71.Meaning L.B.S s) (hn : C71.Nondegenerate L.B.S s) (hf : C73.Domains L.B) (hF : Meaning L.F sF d) (hl : AllGood L sF) (hD : Dead L)
    (hC : C73.Elastic L.B C) (h : Solves L s b solve) (hg : Ode.Prescribes b g)
    (hrest : ∀ i ∈ b.allDofs, ∀ t t', g t i = g t' i) {β dt : ℝ} (hβ : 0 < β) (hdt : 0 < dt) {r : Ode.Run2 L.B.N} (hr : Ready L s b g r) :
    ∃ r' a, Ode.step2 b .direct solve β (1 / 2) dt r = some r' ∧ r'.t = r.t + dt ∧ r'.first = false ∧ Ready L s b g r' ∧ (r.first = false → a = r.d2xdt2) ∧
      C73.energy L.B s C r'.x r'.dxdt + 1 / 2 * (dt * dt) * (β - 1 / 4) * C73.inertia L.B s r'.d2xdt2 r'.d2xdt2 =
        C73.energy L.B s C r.x r.dxdt + 1 / 2 * (dt * dt) * (β - 1 / 4) * C73.inertia L.B s a a +
          1 / 2 * (force L s sF r.t (r'.x - r.x) + force L s sF r'.t (r'.x - r.x)) := by
  obtain ⟨r', a, h1, ht1, hf1, hr1, hbal, -, hcar, hx, hv⟩ := newmark_step h hg (1 / 2) hβ hdt hr
  refine ⟨r', a, h1, ht1, hf1, hr1, hcar, ?_⟩
  have hδ : ∀ i ∈ b.allDofs, (r'.x - r.x) i = 0 := fun i hi => by
    rw [Pi.sub_apply, hr1.fixed i hi, hr.fixed i hi, hrest i hi r'.t r.t, sub_self]
  have e0 := balanced_tested hm hn hf hF hl hD hC hbal hδ
  have e1 := balanced_tested hm hn hf hF hl hD hC (hr1.carried hf1).1 hδ
  rw [show (1 : ℝ) - 1 / 2 = 1 / 2 by norm_num] at hv
  exact C73.newmark_energy (C73.massForm L.B s) (C73.strainForm L.B s hC) C73.inertia_symm (C73.strain_symm hC) (forceForm L s sF r.t) (forceForm L s sF r'.t) β dt r.x
    r.dxdt a r'.x r'.dxdt r'.d2xdt2 hx hv e0 e1

/-- The loads do not change with time. -/
def Steady (L : Loaded d) : Prop := ∀ l ∈ L.loads, ∀ t t', match l with
  | .traction _ f => ∀ x n, f x n t = f x n t'
  | .pressure _ f => ∀ x, f x t = f x t'

theorem steady_external (h : Steady L) (t t' : ℝ) (u v : Ode.Vec L.B.N) : external L sF t u v = external L sF t' u v := by
  unfold external
  refine sum_map_congr _ fun l hl => ?_
  have := h l hl t t'
  cases l with
  | traction l f => exact integral_congr fun ee _ Q _ => by simp only [this]
  | pressure l f => exact integral_congr fun ee _ Q _ => by simp only [this]

/-- **C75, energy.**  Average acceleration: an elastic body with resting supports, constant body forces and constant dead loads keeps the sum of kinetic, elastic and
potential energy exactly, for any number of steps of any lengths. -/
theorem C75_energy (hm : C71.Meaning L.B.S s) (hn : C71.Nondegenerate L.B.S s) (hf : C73.Domains L.B) (hF : Meaning L.F sF d) (hl : AllGood L sF) (hD : Dead L)
    (hC : C73.Elastic L.B C) (h : Solves L s b solve) (hg : Ode.Prescribes b g)
    (hrest : ∀ i ∈ b.allDofs, ∀ t t', g t i = g t' i) (hconst : ∀ f ∈ L.B.forces, ∀ t t' p, f.value t p = f.value t' p) (hS : Steady L)
    (dts : List ℝ) (hdt : ∀ dt ∈ dts, 0 < dt) (r : Ode.Run2 L.B.N) (hr : Ready L s b g r) :
    ∃ r', Ode.runSteps (Ode.step2 b .direct solve (1 / 4) (1 / 2)) dts r = some r' ∧
      C73.energy L.B s C r'.x r'.dxdt - force L s sF 0 r'.x = C73.energy L.B s C r.x r.dxdt - force L s sF 0 r.x := by
  have hl' : ∀ t v, force L s sF t v = forceForm L s sF 0 v := by
    intro t v
    change force L s sF t v = force L s sF 0 v
    unfold force
    rw [steady_external hS t 0]
    congr 1
    unfold C73.load
    congr 1
    exact List.map_congr_left fun f hf => C73.integral_congr fun ee _ Q _ => by rw [hconst f hf t 0]
  induction dts generalizing r with
  | nil => exact ⟨r, rfl, rfl⟩
  | cons dt dts ih =>
    obtain ⟨r1, a, h1, -, -, hr1, -, hE⟩ := C75_work hm hn hf hF hl hD hC h hg hrest (by norm_num : (0 : ℝ) < 1 / 4) (hdt dt List.mem_cons_self) hr
    obtain ⟨r2, h2, hE2⟩ := ih (fun x hx => hdt x (List.mem_cons_of_mem _ hx)) r1 hr1
    refine ⟨r2, by rw [Ode.runSteps, h1, Option.bind_some, h2], hE2.trans ?_⟩
    rw [hl', hl', map_sub] at hE
    rw [hl', hl']
    linarith

/-- **C75, existence** of the solutions that `Solves` asks for, for elastic bodies with dead loads. -/
theorem C75_solvable (hm : C71.Meaning L.B.S s) (hn : C71.Nondegenerate L.B.S s) (hf : C73.Domains L.B) (hF : Meaning L.F sF d) (hl : AllGood L sF) (hD : Dead L)
    (hC : C73.Elastic L.B C) (hv : C73.Volumes L.B s) (hρ : 0 ≤ L.B.S.density)
    (hpos : ∀ p H, 0 ≤ ∑ i, ∑ j, C p H i j * H i j) (hdef : ∀ v : Ode.Vec L.B.N, C73.inertia L.B s v v = 0 → v = 0) (b : Ode.BCs L.B.N) :
    ∃ solve, Solves L s b solve := by
  have hentry : ∀ t x a k, L.residual t x a k = C73.massForm L.B s a (Pi.single k 1) + C73.strainForm L.B s hC x (Pi.single k 1) - forceForm L s sF t (Pi.single k 1) := by
    intro t x a k
    have := elastic_tested hm hn hf hF hl hD hC t x a (Pi.single k 1)
    have e : ∑ j, L.residual t x a j * (Pi.single k 1 : Ode.Vec L.B.N) j = L.residual t x a k := by simp [Pi.single_apply]
    exact e.symm.trans this
  suffices h : ∀ (st : Ode.State2 L.B.N) (guess : Ode.Vec L.B.N), ∃ a : Ode.Vec L.B.N, (0 ≤ st.c0 → L.accResidual b.allDofs st a = 0) ∧ ∀ i ∈ b.allDofs, a i = guess i from
    ⟨fun st v => (h st v).choose, fun st v i hi => (h st v).choose_spec.2 i hi, fun st v hc => (h st v).choose_spec.1 hc, fun st v _ => ⟨_, C73.elastic_defined hC _⟩⟩
  intro st guess
  by_cases hc : 0 ≤ st.c0
  swap
  · exact ⟨guess, fun h => absurd h hc, fun _ _ => rfl⟩
  let A : Ode.Vec L.B.N →ₗ[ℝ] Ode.Vec L.B.N →ₗ[ℝ] ℝ := C73.massForm L.B s + st.c0 • C73.strainForm L.B s hC
  let T : Ode.Vec L.B.N →ₗ[ℝ] Ode.Vec L.B.N :=
    { toFun := fun a k => if k ∈ b.allDofs then a k else A a (Pi.single k 1)
      map_add' := fun a a' => by
        funext k
        simp only [Pi.add_apply, map_add, LinearMap.add_apply]
        split_ifs <;> rfl
      map_smul' := fun c a => by
        funext k
        simp only [Pi.smul_apply, map_smul, LinearMap.smul_apply, RingHom.id_apply]
        split_ifs <;> rfl }
  have hdot : ∀ a v : Ode.Vec L.B.N, A a v = ∑ k, A a (Pi.single k 1) * v k := by
    intro a v
    conv_lhs => rw [← Finset.univ_sum_single v]
    rw [map_sum]
    refine sum_congr rfl fun k _ => ?_
    rw [show (Pi.single k (v k) : Ode.Vec L.B.N) = v k • Pi.single k 1 by rw [← Pi.single_smul, smul_eq_mul, mul_one], map_smul, smul_eq_mul, mul_comm]
  have hinj : Function.Injective T := by
    refine (injective_iff_map_eq_zero T).2 fun a ha => hdef a ?_
    have h0 : A a a = 0 := by
      rw [hdot]
      refine sum_eq_zero fun k _ => ?_
      have hk : (if k ∈ b.allDofs then a k else A a (Pi.single k 1)) = 0 := congrFun ha k
      split_ifs at hk
      · rw [hk, mul_zero]
      · rw [hk, zero_mul]
    have h1 : C73.inertia L.B s a a + st.c0 * C73.strain L.B s C a a = 0 := h0
    have := C73.inertia_nonneg (s := s) hv hρ a
    have := mul_nonneg hc (C73.strain_nonneg (s := s) hv hpos a)
    linarith
  obtain ⟨a, ha⟩ := LinearMap.injective_iff_surjective.1 hinj fun k => if k ∈ b.allDofs then guess k else
    forceForm L s sF st.time (Pi.single k 1) - C73.strainForm L.B s hC st.u (Pi.single k 1)
  have hk : ∀ k, (if k ∈ b.allDofs then a k else A a (Pi.single k 1)) = if k ∈ b.allDofs then guess k else
    forceForm L s sF st.time (Pi.single k 1) - C73.strainForm L.B s hC st.u (Pi.single k 1) := fun k => congrFun ha k
  refine ⟨a, fun _ => ?_, fun i hi => ?_⟩
  · funext k
    unfold Loaded.accResidual
    split_ifs with h
    · rfl
    · have := hk k
      rw [if_neg h, if_neg h] at this
      rw [hentry, show (fun m => 1 * st.u m + st.c0 * a m) = st.u + st.c0 • a by funext m; simp, map_add, map_smul]
      change C73.massForm L.B s a (Pi.single k 1) + st.c0 * C73.strainForm L.B s hC a (Pi.single k 1) = _ at this
      change C73.massForm L.B s a (Pi.single k 1) + (C73.strainForm L.B s hC st.u (Pi.single k 1) + st.c0 * C73.strainForm L.B s hC a (Pi.single k 1)) - _ = 0
      linarith
  · have := hk i
    rw [if_pos hi, if_pos hi] at this
    exact this

end Runs

/-! ## Heat -/

section Heat
open Serac.Heat Serac.Ode
variable {d : Dim} {X : Exchange d} {s sF : Shapes}

theorem sum_map_congr' {T : Type} (l : List T) {f g : T → ℝ} (h : ∀ a ∈ l, f a = g a) : (l.map f).sum = (l.map g).sum := by rw [List.map_congr_left h]

/-- Heat that leaves through the boundary, weighted with `v`. -/
def outflow (X : Exchange d) (sF : Shapes) (t : ℝ) (u v : X.S.Nodal) : ℝ := (X.fluxes.map fun l => integral X.F sF l.elements fun ee Q =>
  let A := area d (tangents X.F sF X.S.pos ee.1 Q)
  size A * l.f (place X.F sF X.S.pos ee.1 Q) ((size A)⁻¹ • A) t (along X.F sF u ee.1 Q) * along X.F sF v ee.1 Q).sum

def AllGoodHeat (X : Exchange d) (sF : Shapes) : Prop := ∀ l ∈ X.fluxes, Good X.F sF X.S.pos l.elements

/-- One flux, tested. -/
theorem flux_tested (hF : Meaning X.F sF d) {l : Flux d} (hl : Good X.F sF X.S.pos l.elements) (t : ℝ) (u v : X.S.Nodal) :
    ∑ n, X.F.integrate 1 (X.fluxFn l t) l.elements (X.S.field u) n 0 * v n = integral X.F sF l.elements fun ee Q =>
      let A := area d (tangents X.F sF X.S.pos ee.1 Q)
      size A * l.f (place X.F sF X.S.pos ee.1 Q) ((size A)⁻¹ • A) t (along X.F sF u ee.1 Q) * along X.F sF v ee.1 Q := by
  have h := tested (c := 1) hF (by norm_num) (X.fluxFn l t) (fun e he => (hl e he).1) (X.S.field u) fun n _ => v n
  simp only [Fin.sum_univ_one] at h
  rw [h]
  refine integral_congr fun ee hee Q hQ => ?_
  obtain ⟨e1, e2⟩ := at_div (p := ee.2) hQ
  have h3 := interp_eq (d := d) hF.trial X.F.conn (X.S.field u) ee.1 Q
  unfold Faces.interp at h3
  have h4 : (interpolate X.F.E fun p => gatherE X.F.E.ndof X.F.conn (X.S.field u) (ee.1 * (1 * X.F.E.ndof) + p)).value Q 0 = along X.F sF u ee.1 Q :=
    congrFun (congrArg Prod.fst h3) 0
  unfold Exchange.fluxFn
  dsimp only
  rw [e1, e2, geometry_eq hF _ hee, h4, flux_eq l.f t _ _ _ ((hl ee.1 (mem_zipIdx_fst hee)).2 Q hQ), Option.getD_some]
  rfl

/-- **C75, weak form of heat exchange.**  The residual tested with any nodal field: that of C72 plus the heat that leaves through the boundary. -/
theorem C75_heat_weak_form (hm : C72.Meaning X.S s) (hg : C72.AllGood X.S s) (hF : Meaning X.F sF d) (hl : AllGoodHeat X sF) (t : ℝ) (u a v : X.S.Nodal)
    (q : ℕ × ℕ → ℕ → Vec ℝ d.n) (hq : C72.Flux X.S s u q) :
    ∑ n, X.residual t u a n * v n = C72.integral X.S s X.S.elements (fun ee Q => C72.capacity X.S ee Q * C72.value X.S s a ee.1 Q * C72.value X.S s v ee.1 Q -
      ∑ j, q ee Q j * C72.grad X.S s v ee.1 Q j) - C72.supplied X.S s t u v + outflow X sF t u v := by
  have key : ∀ (ls : List (Flux d)) (r0 : X.S.Nodal), (∀ l ∈ ls, Good X.F sF X.S.pos l.elements) →
      ∑ n, ls.foldl (fun r l => r + fun n => X.F.integrate 1 (X.fluxFn l t) l.elements (X.S.field u) n 0) r0 n * v n =
      ∑ n, r0 n * v n + (ls.map fun l => integral X.F sF l.elements fun ee Q =>
        let A := area d (tangents X.F sF X.S.pos ee.1 Q)
        size A * l.f (place X.F sF X.S.pos ee.1 Q) ((size A)⁻¹ • A) t (along X.F sF u ee.1 Q) * along X.F sF v ee.1 Q).sum := by
    intro ls
    induction ls with
    | nil => intro r0 _; simp
    | cons l ls ih =>
      intro r0 h
      rw [List.foldl_cons, ih _ fun x hx => h x (List.mem_cons_of_mem _ hx), List.map_cons, List.sum_cons, ← flux_tested hF (h l List.mem_cons_self), ← add_assoc,
        ← sum_add_distrib]
      congr 1
      exact sum_congr rfl fun n _ => add_mul _ _ _
  refine (key X.fluxes _ hl).trans ?_
  rw [C72.C72_weak_form hm hg t u a v q hq]
  rfl

/-- **C75, balance of heat.**  The residual adds up to the rate of the heat content minus what the sources supply plus what leaves through the boundary. -/
theorem C75_heat_balance (hm : C72.Meaning X.S s) (hg : C72.AllGood X.S s) (hu : C72.Unity X.S s) (hF : Meaning X.F sF d) (hl : AllGoodHeat X sF) (t : ℝ) (u a : X.S.Nodal)
    (q : ℕ × ℕ → ℕ → Vec ℝ d.n) (hq : C72.Flux X.S s u q) :
    ∑ n, X.residual t u a n = C72.integral X.S s X.S.elements (fun ee Q => C72.capacity X.S ee Q * C72.value X.S s a ee.1 Q) -
      (C72.supplied X.S s t u fun _ => 1) + outflow X sF t u fun _ => 1 := by
  have h1 := C75_heat_weak_form hm hg hF hl t u a (fun _ => 1) q hq
  have h2 := C72.C72_weak_form hm hg t u a (fun _ => 1) q hq
  have h3 := C72.C72_balance hm hg hu t u a q hq
  simp only [mul_one] at h1 h2
  rw [h1, ← h2, h3]

/-- Assumption on the nonlinear solver, as in C72. -/
structure SolvesHeat (X : Exchange d) (b : BCs X.S.nn) (solve : State1 X.S.nn → Ode.Vec X.S.nn → Ode.Vec X.S.nn) : Prop where
  zero : ∀ st guess, 0 < st.dt → ∀ n, X.rateResidual b.allDofs st (solve st guess) n = 0
  keeps : Keeps b solve

theorem heat_step_spec {b : BCs X.S.nn} {solve : State1 X.S.nn → Ode.Vec X.S.nn → Ode.Vec X.S.nn} (h : SolvesHeat X b solve) {m : Enforce} (hm : m = .direct ∨ m = .rate) {dt : ℝ}
    (hdt : 0 < dt) (r : Run1 X.S.nn) : ∃ k : X.S.Nodal, (stepBE1 b m solve dt r).x = (fun n => 1 * r.x n + dt * k n) ∧ (stepBE1 b m solve dt r).t = r.t + dt ∧
      ∀ n ∉ b.allDofs, X.residual (r.t + dt) (stepBE1 b m solve dt r).x k n = 0 := by
  refine ⟨(solve1 b m solve r.st (r.t + dt) dt r.x).2, by funext n; simp [stepBE1], rfl, fun n hn => ?_⟩
  have hsp := solve1_spec (m := m) h.keeps r.st (r.t + dt) dt r.x
  have hu : (solve1 b m solve r.st (r.t + dt) dt r.x).1.u = r.x := by
    funext i
    by_cases hi : i ∈ b.allDofs
    · rw [(hsp.1 i hi).1]
      unfold constraint1
      simp only [ne_eq, hdt.ne', not_false_eq_true, if_true]
      rcases hm with rfl | rfl <;> rfl
    · exact hsp.2 i hi
  obtain ⟨st', g, h1, h2, h3, h4⟩ : ∃ st' g, (solve1 b m solve r.st (r.t + dt) dt r.x).2 = solve st' g ∧ st'.u = (solve1 b m solve r.st (r.t + dt) dt r.x).1.u ∧
      st'.time = r.t + dt ∧ st'.dt = dt := ⟨_, _, rfl, rfl, rfl, rfl⟩
  have hz := h.zero st' g (by rw [h4]; exact hdt) n
  unfold Exchange.rateResidual at hz
  rw [if_neg hn, h2, h3, h4, hu, ← h1] at hz
  have h5 : (stepBE1 b m solve dt r).x = fun i => 1 * r.x i + dt * (solve1 b m solve r.st (r.t + dt) dt r.x).2 i := by
    funext i; simp [stepBE1]
  rw [h5]
  exact hz

/-- **C75, heat of a step.**  The heat content changes by what the sources supply, minus what leaves through the boundary, plus what the fixed nodes exchange, all at the end
of the step. -/
theorem C75_heat_step (hm : C72.Meaning X.S s) (hg : C72.AllGood X.S s) (hu : C72.Unity X.S s) (hF : Meaning X.F sF d) (hl : AllGoodHeat X sF) (ht : C72.Total X.S)
    {b : BCs X.S.nn} {solve : State1 X.S.nn → Ode.Vec X.S.nn → Ode.Vec X.S.nn} (h : SolvesHeat X b solve) {m : Enforce} (hm' : m = .direct ∨ m = .rate) {dt : ℝ}
    (hdt : 0 < dt) (r : Run1 X.S.nn) :
    ∃ k : X.S.Nodal, (∀ n, (stepBE1 b m solve dt r).x n = r.x n + dt * k n) ∧ C72.content X.S s (stepBE1 b m solve dt r).x = C72.content X.S s r.x +
      dt * ((C72.supplied X.S s (r.t + dt) (stepBE1 b m solve dt r).x fun _ => 1) - (outflow X sF (r.t + dt) (stepBE1 b m solve dt r).x fun _ => 1) +
        ∑ n with n ∈ b.allDofs, X.residual (r.t + dt) (stepBE1 b m solve dt r).x k n) := by
  obtain ⟨k, hx, -, hk⟩ := heat_step_spec h hm' hdt r
  refine ⟨k, fun n => by rw [hx]; simp, ?_⟩
  obtain ⟨q, hq⟩ := C72.total_flux (s := s) ht (stepBE1 b m solve dt r).x
  have hb := C75_heat_balance hm hg hu hF hl (r.t + dt) (stepBE1 b m solve dt r).x k q hq
  have hs : ∑ n, X.residual (r.t + dt) (stepBE1 b m solve dt r).x k n = ∑ n with n ∈ b.allDofs, X.residual (r.t + dt) (stepBE1 b m solve dt r).x k n := by
    rw [sum_filter]
    refine sum_congr rfl fun n _ => ?_
    split_ifs with hn
    · rfl
    · exact hk n hn
  rw [← hs, hb]
  have hc : C72.content X.S s (stepBE1 b m solve dt r).x =
      C72.content X.S s r.x + dt * C72.integral X.S s X.S.elements fun ee Q => C72.capacity X.S ee Q * C72.value X.S s k ee.1 Q := by
    unfold C72.content
    have := C72.integral_lin (S := X.S) (s := s) X.S.elements 1 dt (fun ee Q => C72.capacity X.S ee Q * C72.value X.S s r.x ee.1 Q)
      fun ee Q => C72.capacity X.S ee Q * C72.value X.S s k ee.1 Q
    rw [one_mul] at this
    rw [← this]
    refine C72.integral_congr fun ee _ Q _ => ?_
    rw [hx, C72.value_lin]
    ring
  rw [hc]
  ring

/-- **C75, heat of a run.**  Without fixed nodes and with sources and fluxes that do not depend on the temperature, the heat content after any number of steps of any
lengths is that at the start plus what the sources supplied minus what left through the boundary. -/
theorem C75_heat_run (hm : C72.Meaning X.S s) (hg : C72.AllGood X.S s) (hu : C72.Unity X.S s) (hF : Meaning X.F sF d) (hl : AllGoodHeat X sF) (ht : C72.Total X.S)
    {b : BCs X.S.nn} (hb : b.allDofs = []) {solve : State1 X.S.nn → Ode.Vec X.S.nn → Ode.Vec X.S.nn} (h : SolvesHeat X b solve) {m : Enforce} (hm' : m = .direct ∨ m = .rate)
    (power loss : ℝ → ℝ) (hp : ∀ t u, C72.supplied X.S s t u (fun _ => 1) = power t) (ho : ∀ t u, outflow X sF t u (fun _ => 1) = loss t)
    (dts : List ℝ) (hdt : ∀ dt ∈ dts, 0 < dt) (r : Run1 X.S.nn) :
    C72.content X.S s (C21.run b m solve dts r).x = C72.content X.S s r.x + C72.supply (fun t => power t - loss t) r.t dts := by
  induction dts generalizing r with
  | nil => simp [C21.run, C72.supply]
  | cons dt l ih =>
    have h1 := ih (fun x hx => hdt x (List.mem_cons_of_mem _ hx)) (stepBE1 b m solve dt r)
    obtain ⟨k, -, h2⟩ := C75_heat_step hm hg hu hF hl ht h hm' (hdt dt List.mem_cons_self) r
    rw [hb] at h2
    simp only [List.not_mem_nil, filter_false, sum_empty, add_zero, hp, ho] at h2
    rw [h2] at h1
    refine h1.trans ?_
    rw [C72.supply, add_assoc]
    rfl

/-- Fluxes that cool: heat leaves where the temperature is positive and enters where it is negative. -/
def Cools (X : Exchange d) : Prop := ∀ l ∈ X.fluxes, ∀ x n t T, 0 ≤ l.f x n t T * T

theorem outflow_nonneg (hw : ∀ Q < X.F.E.npts, 0 ≤ sF.wt Q) (hc : Cools X) (t : ℝ) (u : X.S.Nodal) : 0 ≤ outflow X sF t u u := by
  refine List.sum_nonneg fun x hx => ?_
  obtain ⟨l, hl, rfl⟩ := List.mem_map.1 hx
  refine List.sum_nonneg fun x hx => ?_
  obtain ⟨ee, -, rfl⟩ := List.mem_map.1 hx
  refine sum_nonneg fun Q hQ => mul_nonneg (hw Q (mem_range.1 hQ)) ?_
  dsimp only
  rw [mul_assoc]
  exact mul_nonneg (Real.sqrt_nonneg _) (hc l hl _ _ _ _)

/-- **C75, stability of cooling.**  Without sources, with fluxes that cool and with fixed nodes held at temperature zero, the square of the temperature never grows, over
any number of steps of any lengths. -/
theorem C75_heat_stability (hm : C72.Meaning X.S s) (hg : C72.AllGood X.S s) (hs : X.S.sources = []) (hv : C72.Volumes X.S s X.S.elements) (ht : C72.Total X.S)
    (hd : ∀ p, C49.Dissipates (X.S.material p)) (hc : ∀ p, 0 ≤ (X.S.material p).capacity) (hF : Meaning X.F sF d) (hl : AllGoodHeat X sF)
    (hw : ∀ Q < X.F.E.npts, 0 ≤ sF.wt Q) (hcool : Cools X) {b : BCs X.S.nn} {solve : State1 X.S.nn → Ode.Vec X.S.nn → Ode.Vec X.S.nn}
    (h : SolvesHeat X b solve) (hb : Prescribes b fun _ _ => 0) (dts : List ℝ) (hdt : ∀ dt ∈ dts, 0 < dt) (r : Run1 X.S.nn) :
    C72.square X.S s (C21.run b .direct solve dts r).x ≤ C72.square X.S s r.x := by
  have step : ∀ (dt : ℝ) (hdt : 0 < dt) (r : Run1 X.S.nn), C72.square X.S s (stepBE1 b .direct solve dt r).x ≤ C72.square X.S s r.x := by
    intro dt hdt r
    obtain ⟨k, hx, -, hk⟩ := heat_step_spec h (.inl rfl) hdt r
    have hzero : ∀ n ∈ b.allDofs, (stepBE1 b .direct solve dt r).x n = 0 := fun n hn => (C21.C21_direct_run hb h.keeps [] dt hdt.ne' r n hn).2
    generalize hX : (stepBE1 b .direct solve dt r).x = Y at *
    obtain ⟨q, hq⟩ := C72.total_flux (s := s) ht Y
    have hdis := C72.dissipation_nonneg hv hd hq
    have hout := outflow_nonneg (sF := sF) hw hcool (r.t + dt) Y
    have hwk := C75_heat_weak_form hm hg hF hl (r.t + dt) Y k Y q hq
    rw [C72.supplied, hs, List.map_nil, List.sum_nil, sub_zero] at hwk
    have h0 : ∑ n, X.residual (r.t + dt) Y k n * Y n = 0 := by
      refine sum_eq_zero fun n _ => ?_
      by_cases hn : n ∈ b.allDofs
      · rw [hzero n hn, mul_zero]
      · rw [hk n hn, zero_mul]
    rw [h0] at hwk
    have h1 : C72.integral X.S s X.S.elements (fun ee Q => C72.capacity X.S ee Q * C72.value X.S s k ee.1 Q * C72.value X.S s Y ee.1 Q) + C72.dissipation X.S s Y q +
        outflow X sF (r.t + dt) Y Y = 0 := by
      rw [hwk]
      congr 1
      unfold C72.dissipation
      have := C72.integral_lin (S := X.S) (s := s) X.S.elements 1 1 (fun ee Q => C72.capacity X.S ee Q * C72.value X.S s k ee.1 Q * C72.value X.S s Y ee.1 Q)
        fun ee Q => -∑ j, q ee Q j * C72.grad X.S s Y ee.1 Q j
      rw [one_mul, one_mul] at this
      rw [← this]
      refine C72.integral_congr fun ee _ Q _ => by ring
    have h2 : 0 ≤ C72.square X.S s r.x - C72.square X.S s Y +
        2 * dt * C72.integral X.S s X.S.elements fun ee Q => C72.capacity X.S ee Q * C72.value X.S s k ee.1 Q * C72.value X.S s Y ee.1 Q := by
      unfold C72.square
      have e1 := C72.integral_lin (S := X.S) (s := s) X.S.elements 1 (-1) (fun ee Q => C72.capacity X.S ee Q * C72.value X.S s r.x ee.1 Q ^ 2)
        fun ee Q => C72.capacity X.S ee Q * C72.value X.S s Y ee.1 Q ^ 2
      have e2 := C72.integral_lin (S := X.S) (s := s) X.S.elements 1 (2 * dt) (fun ee Q => 1 * (C72.capacity X.S ee Q * C72.value X.S s r.x ee.1 Q ^ 2) +
        -1 * (C72.capacity X.S ee Q * C72.value X.S s Y ee.1 Q ^ 2)) fun ee Q => C72.capacity X.S ee Q * C72.value X.S s k ee.1 Q * C72.value X.S s Y ee.1 Q
      rw [e1] at e2
      have e3 : ∀ a b c : ℝ, a - b + c = 1 * (1 * a + -1 * b) + c := fun a b c => by ring
      rw [e3, ← e2]
      refine C72.integral_nonneg hv fun ee _ Q _ => ?_
      have hxk : C72.value X.S s Y ee.1 Q = C72.value X.S s r.x ee.1 Q + dt * C72.value X.S s k ee.1 Q := by rw [hx, C72.value_lin, one_mul]
      have : 1 * (1 * (C72.capacity X.S ee Q * C72.value X.S s r.x ee.1 Q ^ 2) + -1 * (C72.capacity X.S ee Q * C72.value X.S s Y ee.1 Q ^ 2)) +
          2 * dt * (C72.capacity X.S ee Q * C72.value X.S s k ee.1 Q * C72.value X.S s Y ee.1 Q) = C72.capacity X.S ee Q * (dt * C72.value X.S s k ee.1 Q) ^ 2 := by
        rw [hxk]
        ring
      rw [this]
      exact mul_nonneg (hc _) (sq_nonneg _)
    have h3 : C72.integral X.S s X.S.elements (fun ee Q => C72.capacity X.S ee Q * C72.value X.S s k ee.1 Q * C72.value X.S s Y ee.1 Q) ≤ 0 := by linarith
    have := mul_nonneg_of_nonpos_of_nonpos (by linarith : -(2 * dt) ≤ 0) h3
    linarith
  induction dts generalizing r with
  | nil => exact le_refl _
  | cons dt l ih =>
    exact (ih (fun x hx => hdt x (List.mem_cons_of_mem _ hx)) (stepBE1 b .direct solve dt r)).trans (step dt (hdt dt List.mem_cons_self) r)

/-- Cooling in proportion to the temperature: the heat that leaves per area is `g + h T` with `h ≥ 0`. -/
structure Newton (X : Exchange d) (g h : Flux d → Vec ℝ d.n → Vec ℝ d.n → ℝ → ℝ) : Prop where
  affine : ∀ l ∈ X.fluxes, ∀ x n t T, l.f x n t T = g l x n t + h l x n t * T
  nonneg : ∀ l ∈ X.fluxes, ∀ x n t, 0 ≤ h l x n t

/-- The part of the outflow in proportion to the temperature. -/
def cooling (X : Exchange d) (sF : Shapes) (h : Flux d → Vec ℝ d.n → Vec ℝ d.n → ℝ → ℝ) (t : ℝ) (k v : X.S.Nodal) : ℝ :=
  (X.fluxes.map fun l => integral X.F sF l.elements fun ee Q =>
    let A := area d (tangents X.F sF X.S.pos ee.1 Q)
    size A * (h l (place X.F sF X.S.pos ee.1 Q) ((size A)⁻¹ • A) t * along X.F sF k ee.1 Q) * along X.F sF v ee.1 Q).sum

theorem cooling_lin {h : Flux d → Vec ℝ d.n → Vec ℝ d.n → ℝ → ℝ} (t x y : ℝ) (k k' v : X.S.Nodal) :
    cooling X sF h t (fun n => x * k n + y * k' n) v = x * cooling X sF h t k v + y * cooling X sF h t k' v := by
  unfold cooling
  rw [← List.sum_map_mul_left, ← List.sum_map_mul_left, ← List.sum_map_add]
  refine sum_map_congr' _ fun l _ => ?_
  rw [← integral_lin]
  refine integral_congr fun ee _ Q _ => ?_
  dsimp only
  rw [along_lin]
  ring

theorem cooling_nonneg (hw : ∀ Q < X.F.E.npts, 0 ≤ sF.wt Q) {g h : Flux d → Vec ℝ d.n → Vec ℝ d.n → ℝ → ℝ} (hN : Newton X g h) (t : ℝ) (k : X.S.Nodal) :
    0 ≤ cooling X sF h t k k := by
  refine List.sum_nonneg fun x hx => ?_
  obtain ⟨l, hl, rfl⟩ := List.mem_map.1 hx
  refine List.sum_nonneg fun x hx => ?_
  obtain ⟨ee, -, rfl⟩ := List.mem_map.1 hx
  refine sum_nonneg fun Q hQ => mul_nonneg (hw Q (mem_range.1 hQ)) ?_
  dsimp only
  rw [mul_assoc, mul_assoc]
  exact mul_nonneg (Real.sqrt_nonneg _) (mul_nonneg (hN.nonneg l hl _ _ _) (mul_self_nonneg _))

theorem outflow_affine {g h : Flux d → Vec ℝ d.n → Vec ℝ d.n → ℝ → ℝ} (hN : Newton X g h) (t dt : ℝ) (u k v : X.S.Nodal) :
    outflow X sF t (fun m => 1 * u m + dt * k m) v = outflow X sF t u v + dt * cooling X sF h t k v := by
  unfold outflow cooling
  rw [← List.sum_map_mul_left, ← List.sum_map_add]
  refine sum_map_congr' _ fun l hl => ?_
  have := integral_lin (F := X.F) (s := sF) l.elements 1 dt (fun ee Q => let A := area d (tangents X.F sF X.S.pos ee.1 Q)
    size A * l.f (place X.F sF X.S.pos ee.1 Q) ((size A)⁻¹ • A) t (along X.F sF u ee.1 Q) * along X.F sF v ee.1 Q)
    (fun ee Q => let A := area d (tangents X.F sF X.S.pos ee.1 Q)
    size A * (h l (place X.F sF X.S.pos ee.1 Q) ((size A)⁻¹ • A) t * along X.F sF k ee.1 Q) * along X.F sF v ee.1 Q)
  rw [one_mul] at this
  rw [← this]
  refine integral_congr fun ee _ Q _ => ?_
  dsimp only
  rw [along_lin, hN.affine l hl, hN.affine l hl]
  ring

/-- How the residual of a step, tested with `v`, depends on the rate `k`. -/
def rateForm (X : Exchange d) (s sF : Shapes) (A : ℕ → M d.n) (h : Flux d → Vec ℝ d.n → Vec ℝ d.n → ℝ → ℝ) (t dt : ℝ) (k v : X.S.Nodal) : ℝ :=
  C72.integral X.S s X.S.elements (fun ee Q => C72.capacity X.S ee Q * C72.value X.S s k ee.1 Q * C72.value X.S s v ee.1 Q -
    dt * ∑ j, C72.linearFlux X.S s A k ee Q j * C72.grad X.S s v ee.1 Q j) + dt * cooling X sF h t k v

theorem linearFlux_lin {A : ℕ → M d.n} (x y : ℝ) (k k' : X.S.Nodal) (ee : ℕ × ℕ) (Q : ℕ) (j : Fin d.n) :
    C72.linearFlux X.S s A (fun n => x * k n + y * k' n) ee Q j = x * C72.linearFlux X.S s A k ee Q j + y * C72.linearFlux X.S s A k' ee Q j := by
  unfold C72.linearFlux
  rw [← neg_mul_eq_mul_neg, ← neg_mul_eq_mul_neg, mul_sum, mul_sum, ← neg_add, ← sum_add_distrib]
  congr 1
  refine sum_congr rfl fun i _ => ?_
  rw [C72.grad_lin]
  ring

theorem rateForm_lin {A : ℕ → M d.n} {h : Flux d → Vec ℝ d.n → Vec ℝ d.n → ℝ → ℝ} (t dt x y : ℝ) (k k' v : X.S.Nodal) :
    rateForm X s sF A h t dt (fun n => x * k n + y * k' n) v = x * rateForm X s sF A h t dt k v + y * rateForm X s sF A h t dt k' v := by
  unfold rateForm
  rw [cooling_lin]
  have e : ∀ a b c a' b' c' : ℝ, a = x * b + y * c → a + dt * (x * b' + y * c') = x * (b + dt * b') + y * (c + dt * c') := fun a b c a' b' c' h => by rw [h]; ring
  refine e _ _ _ 0 _ _ ?_
  rw [← C72.integral_lin]
  refine C72.integral_congr fun ee _ Q _ => ?_
  rw [C72.value_lin]
  simp only [linearFlux_lin, add_mul, sum_add_distrib, mul_assoc, ← mul_sum]
  ring

theorem rate_tested (hm : C72.Meaning X.S s) (hg : C72.AllGood X.S s) (hF : Meaning X.F sF d) (hl : AllGoodHeat X sF) {A : ℕ → M d.n} (hA : C72.Linear X.S A)
    (hsrc : ∀ src ∈ X.S.sources, ∀ t p T T' g g', src.value t p T g = src.value t p T' g') {g h : Flux d → Vec ℝ d.n → Vec ℝ d.n → ℝ → ℝ} (hN : Newton X g h)
    (t dt : ℝ) (u k v : X.S.Nodal) :
    ∑ n, (X.residual t (fun m => 1 * u m + dt * k m) k n - X.residual t u 0 n) * v n = rateForm X s sF A h t dt k v := by
  simp only [sub_mul, sum_sub_distrib]
  rw [C75_heat_weak_form hm hg hF hl t _ k v _ (C72.linear_flux hA _), C75_heat_weak_form hm hg hF hl t u 0 v _ (C72.linear_flux hA _), outflow_affine hN]
  have hsup : C72.supplied X.S s t (fun m => 1 * u m + dt * k m) v = C72.supplied X.S s t u v := by
    unfold C72.supplied
    refine sum_map_congr' _ fun src hsc => C72.integral_congr fun ee _ Q _ => ?_
    rw [hsrc src hsc]
  rw [hsup]
  unfold rateForm
  have e := C72.integral_lin (S := X.S) (s := s) X.S.elements 1 1
    (fun ee Q => C72.capacity X.S ee Q * C72.value X.S s k ee.1 Q * C72.value X.S s v ee.1 Q - dt * ∑ j, C72.linearFlux X.S s A k ee Q j * C72.grad X.S s v ee.1 Q j)
    (fun ee Q => C72.capacity X.S ee Q * C72.value X.S s (0 : X.S.Nodal) ee.1 Q * C72.value X.S s v ee.1 Q -
      ∑ j, C72.linearFlux X.S s A u ee Q j * C72.grad X.S s v ee.1 Q j)
  have e2 : C72.integral X.S s X.S.elements (fun ee Q => C72.capacity X.S ee Q * C72.value X.S s k ee.1 Q * C72.value X.S s v ee.1 Q -
      ∑ j, C72.linearFlux X.S s A (fun m => 1 * u m + dt * k m) ee Q j * C72.grad X.S s v ee.1 Q j) = _ := (C72.integral_congr fun ee _ Q _ => ?_).trans e
  · rw [e2]
    ring
  · simp only [linearFlux_lin, add_mul, sum_add_distrib, mul_assoc, ← mul_sum]
    rw [show C72.value X.S s (0 : X.S.Nodal) ee.1 Q = 0 from C72.value_zero ee.1 Q]
    ring

/-- Existence also for the explicit stages, of length zero. -/
theorem heat_solvable_all (hm : C72.Meaning X.S s) (hg : C72.AllGood X.S s) (hv : C72.Volumes X.S s X.S.elements) (hF : Meaning X.F sF d) (hl : AllGoodHeat X sF)
    (hw : ∀ Q < X.F.E.npts, 0 ≤ sF.wt Q) {A : ℕ → M d.n} (hA : C72.Linear X.S A) (hd : ∀ p, C49.Dissipates (X.S.material p))
    (hsq : ∀ x : X.S.Nodal, C72.square X.S s x = 0 → x = 0) (hc : ∀ p, 0 ≤ (X.S.material p).capacity)
    (hsrc : ∀ src ∈ X.S.sources, ∀ t p T T' g g', src.value t p T g = src.value t p T' g') {g h : Flux d → Vec ℝ d.n → Vec ℝ d.n → ℝ → ℝ} (hN : Newton X g h)
    (b : BCs X.S.nn) : ∃ solve : State1 X.S.nn → Ode.Vec X.S.nn → Ode.Vec X.S.nn, 
      (∀ st guess, 0 ≤ st.dt → ∀ n, X.rateResidual b.allDofs st (solve st guess) n = 0) ∧ Keeps b solve := by
  suffices hs : ∀ (st : State1 X.S.nn) (guess : X.S.Nodal), ∃ k : X.S.Nodal, (0 ≤ st.dt → X.rateResidual b.allDofs st k = 0) ∧ ∀ n ∈ b.allDofs, k n = guess n by
    refine ⟨fun st g => (hs st g).choose, fun st g hdt n => ?_, fun st g n hn => (hs st g).choose_spec.2 n hn⟩
    rw [(hs st g).choose_spec.1 hdt]
    rfl
  intro st guess
  by_cases hdt : 0 ≤ st.dt
  swap
  · exact ⟨guess, fun h => absurd h hdt, fun _ _ => rfl⟩
  let a : X.S.Nodal → X.S.Nodal → ℝ := rateForm X s sF A h st.time st.dt
  have hlin : ∀ x y k k' v, a (fun n => x * k n + y * k' n) v = x * a k v + y * a k' v := fun x y k k' v => rateForm_lin _ _ x y k k' v
  have htest := fun k v => rate_tested hm hg hF hl hA hsrc hN st.time st.dt st.u k v
  have hone : ∀ k n, a k (fun m => if m = n then 1 else 0) = X.residual st.time (fun m => 1 * st.u m + st.dt * k m) k n - X.residual st.time st.u 0 n := by
    intro k n
    refine (htest k _).symm.trans ?_
    simp
  let T : X.S.Nodal →ₗ[ℝ] X.S.Nodal :=
    { toFun := fun k n => if n ∈ b.allDofs then k n else a k fun m => if m = n then 1 else 0
      map_add' := fun k k' => by
        funext n
        simp only [Pi.add_apply]
        split_ifs
        · rfl
        · rw [show k + k' = fun n => 1 * k n + 1 * k' n by funext n; simp, hlin, one_mul, one_mul]
      map_smul' := fun c k => by
        funext n
        simp only [Pi.smul_apply, RingHom.id_apply]
        split_ifs
        · rfl
        · rw [show c • k = fun n => c * k n + 0 * k n by funext n; simp, hlin, zero_mul, add_zero, smul_eq_mul] }
  have hinj : Function.Injective T := by
    refine (injective_iff_map_eq_zero T).2 fun k hk => hsq k ?_
    have h0 : a k k = 0 := by
      refine (htest k k).symm.trans (sum_eq_zero fun n _ => ?_)
      have hn : (if n ∈ b.allDofs then k n else a k fun m => if m = n then 1 else 0) = 0 := congrFun hk n
      split_ifs at hn
      · rw [hn, mul_zero]
      · rw [← hone, hn, zero_mul]
    have h1 : a k k = C72.square X.S s k + st.dt * C72.dissipation X.S s k (C72.linearFlux X.S s A k) + st.dt * cooling X sF h st.time k k := by
      have e := C72.integral_lin (S := X.S) (s := s) X.S.elements 1 st.dt (fun ee Q => C72.capacity X.S ee Q * C72.value X.S s k ee.1 Q ^ 2)
        fun ee Q => -∑ j, C72.linearFlux X.S s A k ee Q j * C72.grad X.S s k ee.1 Q j
      rw [one_mul] at e
      change _ = C72.square X.S s k + st.dt * C72.dissipation X.S s k (C72.linearFlux X.S s A k) at e
      rw [← e]
      refine congrArg (· + _) (C72.integral_congr fun ee _ Q _ => ?_)
      ring
    have h5 := C72.dissipation_nonneg hv hd (C72.linear_flux (s := s) hA k)
    have h6 : 0 ≤ C72.square X.S s k := C72.integral_nonneg hv fun ee _ Q _ => mul_nonneg (hc _) (sq_nonneg _)
    have h7 := mul_nonneg hdt h5
    have h8 := mul_nonneg hdt (cooling_nonneg (sF := sF) hw hN st.time k)
    linarith
  obtain ⟨k, hk⟩ := LinearMap.injective_iff_surjective.1 hinj fun n => if n ∈ b.allDofs then guess n else -X.residual st.time st.u 0 n
  have hk' : ∀ n, (if n ∈ b.allDofs then k n else a k fun m => if m = n then 1 else 0) = if n ∈ b.allDofs then guess n else -X.residual st.time st.u 0 n :=
    fun n => congrFun hk n
  refine ⟨k, fun _ => ?_, fun n hn => ?_⟩
  · funext n
    unfold Exchange.rateResidual
    split_ifs with hn
    · rfl
    · have := hk' n
      rw [if_neg hn, if_neg hn, hone] at this
      change _ = (0 : ℝ)
      linarith
  · have := hk' n
    rwa [if_pos hn, if_pos hn] at this

/-- **C75, existence with cooling.**  With linear conduction, sources independent of the temperature and cooling in proportion to it, every step of positive length can be
solved, for every choice of fixed nodes. -/
theorem C75_heat_solvable (hm : C72.Meaning X.S s) (hg : C72.AllGood X.S s) (hv : C72.Volumes X.S s X.S.elements) (hF : Meaning X.F sF d) (hl : AllGoodHeat X sF)
    (hw : ∀ Q < X.F.E.npts, 0 ≤ sF.wt Q) {A : ℕ → M d.n} (hA : C72.Linear X.S A) (hd : ∀ p, C49.Dissipates (X.S.material p))
    (hsq : ∀ x : X.S.Nodal, C72.square X.S s x = 0 → x = 0) (hc : ∀ p, 0 ≤ (X.S.material p).capacity)
    (hsrc : ∀ src ∈ X.S.sources, ∀ t p T T' g g', src.value t p T g = src.value t p T' g') {g h : Flux d → Vec ℝ d.n → Vec ℝ d.n → ℝ → ℝ} (hN : Newton X g h)
    (b : BCs X.S.nn) : ∃ solve : State1 X.S.nn → Ode.Vec X.S.nn → Ode.Vec X.S.nn, SolvesHeat X b solve := by
  obtain ⟨solve, h1, h2⟩ := heat_solvable_all hm hg hv hF hl hw hA hd hsq hc hsrc hN b
  exact ⟨solve, fun st guess hdt => h1 st guess hdt.le, h2⟩

end Heat

/-! ## Examples -/

section Examples

/-- Linear line elements with the midpoint rule. -/
def exRule : SF.Rule ℝ := ⟨2, 1, fun a x => if a = 0 then 1 - x else x, fun a _ => if a = 0 then -1 else 1, fun _ => 1 / 2, fun _ => 1⟩

/-- The boundary of the square of C71, counter-clockwise. -/
def exFaces : Faces 5 5 where
  E := segmentElem exRule
  G := segmentElem exRule
  conn e a := Fin.ofNat 5 ((e + a) % 4)
  connG e a := Fin.ofNat 5 ((e + a) % 4)
  ne := 4

def exSF : Shapes where
  phi Q a := exRule.N a (exRule.pt Q)
  dphi Q a _ := exRule.dN a (exRule.pt Q)
  wt := exRule.wt
  phiG Q a := exRule.N a (exRule.pt Q)
  dphiG Q a _ := exRule.dN a (exRule.pt Q)

theorem ex_faces : Meaning exFaces exSF .two := ⟨(C51.C51_segment exRule).1, (C51.C51_segment exRule).2, (C51.C51_segment exRule).1, rfl⟩

theorem ex_faces_unity : Unity exFaces exSF .two := by
  intro Q hQ
  have h2 : exFaces.E.ndof = 2 := rfl
  refine ⟨?_, fun k => ?_⟩
  · rw [h2]
    simp [exSF, exRule, sum_range_succ]
  · rw [h2]
    simp [exSF, exRule, sum_range_succ]

theorem ex_faces_positions : Positions (d := .two) exFaces exSF C71.exPos C71.exPos := fun _ _ _ => rfl

theorem ex_faces_good (l : List ℕ) (h : ∀ e ∈ l, e < 4) : Good (d := .two) exFaces exSF C71.exPos l := by
  intro e he
  have he := h e he
  refine ⟨he, fun Q _ h0 => ?_⟩
  have h1 : (area .two (tangents (d := .two) exFaces exSF C71.exPos e Q) : Fin 2 → ℝ) 0 = 0 := by rw [h0]; rfl
  have h2 : (area .two (tangents (d := .two) exFaces exSF C71.exPos e Q) : Fin 2 → ℝ) 1 = 0 := by rw [h0]; rfl
  have hn : exFaces.G.ndof = 2 := rfl
  simp only [area, tangents, hn, sum_range_succ, sum_range_zero] at h1 h2
  interval_cases e <;> simp [exFaces, exSF, exRule, C71.exPos, Fin.ofNat] at h1 h2

theorem ex_lines : Lines exFaces exSF 0 1 := by
  have hn : exFaces.E.ndof = 2 := rfl
  have hp : exFaces.E.npts = 1 := rfl
  refine ⟨by rw [hn]; norm_num, by rw [hn]; norm_num, ?_⟩
  rw [hn, hp]
  intro i hi j hj
  interval_cases i <;> interval_cases j <;> simp [exSF, exRule] <;> norm_num

theorem ex_closed_line : ClosedLine exFaces 0 1 [0, 1, 2, 3] := by
  intro w
  simp [exFaces]

/-- A uniform pressure on the boundary of the square, deformed in any way. -/
example (u : Fin 5 → Vec ℝ 2) (v : Fin 5 → Vec ℝ 2) :
    HasDerivAt (fun r : ℝ => -(7 * enclosed exFaces exSF [0, 1, 2, 3] fun m => C71.exPos m + (u m + r • v m)))
      (work (d := .two) exFaces exSF C71.exPos true 0 u (val exFaces exSF v) (.pressure [0, 1, 2, 3] fun _ _ => 7)) 0 :=
  (C75_closed_plane ex_lines ex_faces_unity ex_faces_positions true 0 7 u _ ex_closed_line).2.2 rfl v

/-- The square encloses the area one. -/
example : enclosed exFaces exSF [0, 1, 2, 3] C71.exPos = 1 := by
  have hn : exFaces.E.ndof = 2 := rfl
  have hp : exFaces.E.npts = 1 := rfl
  simp only [enclosed, along, slope, hn, hp, sum_range_succ, sum_range_zero, List.map_cons, List.map_nil, List.sum_cons, List.sum_nil]
  simp [exFaces, exSF, exRule, C71.exPos, Fin.ofNat]
  norm_num

/-- The square with a traction on its right side and a pressure all around. -/
def exLoaded (forces : List (Force .two)) (loads : List (Load .two)) : Loaded .two := ⟨C73.exBody forces, exFaces, loads⟩

def exTraction : Load .two := .traction [1] fun x _ t => ![3, x 1 + t]
def exHold : Load .two := .traction [1] fun x n _ => ![3 * x 1, n 0]
def exPressure : Load .two := .pressure [0, 1, 2, 3] fun x _ => 5 + x 0

theorem ex_loads_good (forces : List (Force .two)) (loads : List (Load .two)) (h : ∀ l ∈ loads, l = exTraction ∨ l = exHold ∨ l = exPressure) :
    AllGood (exLoaded forces loads) exSF := by
  intro l hl
  refine ex_faces_good _ ?_
  rcases h l hl with rfl | rfl | rfl <;> simp [exTraction, exHold, exPressure, Load.elements]

theorem ex_dead (forces : List (Force .two)) (loads : List (Load .two)) : Dead (exLoaded forces loads) := fun _ _ h => Bool.noConfusion (show false = true from h)

/-- Free: every stage is solvable, and the momentum follows gravity, traction and pressure. -/
example : ∃ solve, Solves (exLoaded [C73.exGravity] [exTraction, exPressure]) C72.exShapes ⟨[], []⟩ solve ∧ ∀ (dts : List ℝ), (∀ dt ∈ dts, 0 < dt) → ∀ (st) (x v : Ode.Vec 10),
    ∃ r', Ode.runSteps (Ode.step2 ⟨[], []⟩ .direct solve (1 / 4) (1 / 2)) dts ⟨st, x, v, 0, true, 0⟩ = some r' ∧
      ∀ c, C73.total (C73.exBody [C73.exGravity]) C72.exShapes r'.dxdt c = C73.total (C73.exBody [C73.exGravity]) C72.exShapes v c +
        C73.impulse (1 / 2) (fun t => C73.resultant (C73.exBody [C73.exGravity]) C72.exShapes t c +
          thrust (exLoaded [C73.exGravity] [exTraction, exPressure]) exSF t 0 c) 0 dts := by
  have hd := C73.ex_domains [C73.exGravity] (by simp)
  obtain ⟨hC, hpos⟩ := C73.ex_elastic [C73.exGravity]
  have hl := ex_loads_good [C73.exGravity] [exTraction, exPressure] (by simp)
  have hD := ex_dead [C73.exGravity] [exTraction, exPressure]
  obtain ⟨solve, hs⟩ := C75_solvable (L := exLoaded [C73.exGravity] [exTraction, exPressure]) (C73.ex_meaning [C73.exGravity]) (C73.ex_nondegenerate _) hd ex_faces hl hD hC
    (C73.ex_volumes _) (by simp [exLoaded, C73.exBody, C73.exMesh]) (fun _ => hpos) (C73.ex_definite _) ⟨[], []⟩
  refine ⟨solve, hs, fun dts hdt st x v => ?_⟩
  exact C75_momentum (L := exLoaded [C73.exGravity] [exTraction, exPressure]) (g := fun _ _ => 0) (C73.ex_meaning _) (C73.ex_nondegenerate _) hd (C73.ex_unity _) ex_faces hl
    ex_faces_unity hs ⟨by simp, by simp⟩ rfl (1 / 2) (by norm_num) _ (fun t u c => C75_dead_thrust hD t u c) dts hdt
    ⟨st, x, v, 0, true, 0⟩ ⟨by simp, fun h => Bool.noConfusion h⟩

/-- Clamped, with constant loads: the energy is kept. -/
example : ∃ solve, Solves (exLoaded [C73.exGravity] [exHold, exPressure]) C72.exShapes C73.exClamp solve ∧ ∀ (dts : List ℝ), (∀ dt ∈ dts, 0 < dt) → ∀ st,
    ∃ r', Ode.runSteps (Ode.step2 C73.exClamp .direct solve (1 / 4) (1 / 2)) dts ⟨st, 0, 0, 0, true, 0⟩ = some r' ∧
      C73.energy (C73.exBody [C73.exGravity]) C72.exShapes (fun _ => C73.isotropic 2 2 1) r'.x r'.dxdt -
        force (exLoaded [C73.exGravity] [exHold, exPressure]) C72.exShapes exSF 0 r'.x =
      C73.energy (C73.exBody [C73.exGravity]) C72.exShapes (fun _ => C73.isotropic 2 2 1) 0 0 -
        force (exLoaded [C73.exGravity] [exHold, exPressure]) C72.exShapes exSF 0 0 := by
  have hd := C73.ex_domains [C73.exGravity] (by simp)
  obtain ⟨hC, hpos⟩ := C73.ex_elastic [C73.exGravity]
  have hl := ex_loads_good [C73.exGravity] [exHold, exPressure] (by simp)
  have hD := ex_dead [C73.exGravity] [exHold, exPressure]
  obtain ⟨solve, hs⟩ := C75_solvable (L := exLoaded [C73.exGravity] [exHold, exPressure]) (C73.ex_meaning [C73.exGravity]) (C73.ex_nondegenerate _) hd ex_faces hl hD hC
    (C73.ex_volumes _) (by simp [exLoaded, C73.exBody, C73.exMesh]) (fun _ => hpos) (C73.ex_definite _) C73.exClamp
  refine ⟨solve, hs, fun dts hdt st => ?_⟩
  refine C75_energy (L := exLoaded [C73.exGravity] [exHold, exPressure]) (C73.ex_meaning _) (C73.ex_nondegenerate _) hd ex_faces hl hD hC hs C73.ex_clamp (fun _ _ _ _ => rfl)
    (by simp [exLoaded, C73.exBody, C73.exGravity]) ?_ dts hdt ⟨st, 0, 0, 0, true, 0⟩ ⟨fun _ _ => rfl, fun h => Bool.noConfusion h⟩
  intro l hl t t'
  have : l = exHold ∨ l = exPressure := by simpa [exLoaded] using hl
  rcases this with rfl | rfl
  · intro x n; rfl
  · intro x; rfl

/-- The boundary of a tetrahedron, with linear triangles. -/
def exTetra : Faces 4 4 where
  E := simplex C72.tri3
  G := simplex C72.tri3
  conn e a := if e = 0 then Fin.ofNat 4 (a + 1) else if e = 1 then ![0, 3, 2] (Fin.ofNat 3 a) else if e = 2 then ![0, 1, 3] (Fin.ofNat 3 a) else ![0, 2, 1] (Fin.ofNat 3 a)
  connG e a := if e = 0 then Fin.ofNat 4 (a + 1) else if e = 1 then ![0, 3, 2] (Fin.ofNat 3 a) else if e = 2 then ![0, 1, 3] (Fin.ofNat 3 a) else ![0, 2, 1] (Fin.ofNat 3 a)
  ne := 4

theorem ex_tetra : Triangles exTetra C72.exShapes := by
  have hp : exTetra.E.npts = 3 := rfl
  refine ⟨rfl, fun Q _ => ?_, fun Q _ => ?_, fun a ha => ?_⟩
  · simp [C72.exShapes, C72.tri3, Nodal.tri1Grad]
  · simp [C72.exShapes, C72.tri3, Nodal.tri1Grad]
  · rw [hp]
    interval_cases a <;> simp [C72.exShapes, C72.tri3, sum_range_succ] <;> norm_num

theorem ex_tetra_corners : corners exTetra [0, 1, 2, 3] = C65.tetrahedron := rfl

example (X u v : Fin 4 → Vec ℝ 3) : HasDerivAt (fun r : ℝ => -(7 * (C65.volume6 C65.tetrahedron (fun m => X m + (u m + r • v m)) / 6)))
      (work (d := .three) exTetra C72.exShapes X true 0 u (val exTetra C72.exShapes v) (.pressure [0, 1, 2, 3] fun _ _ => 7)) 0 := by
  have hc : C65.Closed (corners exTetra [0, 1, 2, 3]) := by
    rw [ex_tetra_corners]
    intro w hw
    simp only [C65.tetrahedron, List.map_cons, List.map_nil, List.sum_cons, List.sum_nil]
    rw [hw 0 3, hw 0 1, hw 0 2, hw 2 3, hw 1 3, hw 1 2]
    ring
  exact (C75_closed ex_tetra (pos := X) (X := X) (fun _ _ _ => rfl) true 0 7 u _ hc).2.2 rfl v

/-- Heat conduction in the square with cooling on two sides. -/
def exCooling : Heat.Flux .two := ⟨[0, 2], fun x _ _ T => (1 + x 0 ^ 2) * T⟩
def exExchange : Heat.Exchange .two := ⟨C72.exHeat [], exFaces, [exCooling]⟩

theorem ex_newton : Newton exExchange (fun _ _ _ _ => 0) fun _ x _ _ => 1 + x (0 : Fin 2) ^ 2 := by
  refine ⟨fun l hl x n t T => ?_, fun _ _ x _ _ => by positivity⟩
  rw [List.mem_singleton.1 (show l ∈ [exCooling] from hl), zero_add]
  rfl

example : ∃ solve, SolvesHeat exExchange C72.exWalls solve ∧ ∀ dts : List ℝ, (∀ dt ∈ dts, 0 < dt) → ∀ r : Ode.Run1 5,
    C72.square (C72.exHeat []) C72.exShapes (C21.run C72.exWalls .direct solve dts r).x ≤ C72.square (C72.exHeat []) C72.exShapes r.x := by
  obtain ⟨-, h2, h3, h4, -⟩ := C72.C72_conductors 2 1 3 2 _ C72.ex_material
  have hg := C72.ex_good [] (by simp)
  have hl : AllGoodHeat exExchange exSF := by
    intro l hl
    rw [List.mem_singleton.1 (show l ∈ [exCooling] from hl)]
    exact ex_faces_good _ (by simp [exCooling])
  have hw : ∀ Q < exExchange.F.E.npts, 0 ≤ exSF.wt Q := fun _ _ => by simp [exSF, exRule]
  obtain ⟨solve, hs⟩ := C75_heat_solvable (X := exExchange) (C72.ex_meaning []) hg (C72.ex_volumes _) ex_faces hl hw (C72.ex_linear _) (fun _ => h3) (C72.ex_definite _)
    (fun _ => h4) (by simp [exExchange, C72.exHeat]) ex_newton C72.exWalls
  refine ⟨solve, hs, fun dts hdt r => C75_heat_stability (X := exExchange) (C72.ex_meaning _) hg rfl (C72.ex_volumes _) (fun _ => h2) (fun _ => h3) (fun _ => h4) ex_faces hl hw ?_
    hs ⟨?_, ?_⟩ dts hdt r⟩
  · intro l hl x n t T
    rw [List.mem_singleton.1 (show l ∈ [exCooling] from hl)]
    change 0 ≤ (1 + x (0 : Fin 2) ^ 2) * T * T
    rw [mul_assoc]
    exact mul_nonneg (by positivity) (mul_self_nonneg T)
  · intro bc hbc i hi t
    rw [List.mem_singleton.1 (show bc ∈ [_] from hbc)]
  · change ∀ i : Fin 5, i ∈ C72.exWalls.allDofs ↔ ∃ bc ∈ C72.exWalls.essentials, i ∈ bc.dofs
    simp [C72.exWalls]

end Examples
end Serac.C75
