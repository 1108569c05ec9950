import Verif.Model.HistoryBody
import Verif.Props.C32
import Verif.Props.C75
import Verif.Props.C89
/-!
# C90: plastic bodies dissipate

Spec.  What mechanics expects of a body of `J2SmallStrain` in a quasi-static analysis, assembled and advanced step by step (`Verif.Model.HistoryBody`).  Work of loads and
supports is stored as elastic energy and energy of kinematic hardening (`stored`), or turned to heat by plastic flow against the equivalent stress (`flow`), or lost because the
step is implicit (`loss`); both are never negative, so a body does not give back more than it was given (`C90_passive`).  `supplied` is what a user can measure: the work of
body forces and boundary loads at the end of the step, and of `reactions_` on the constrained dofs, on the increment of the displacement.  The solver is arbitrary; where
equilibrium matters, the residual vanishes on the free dofs at the end of the step (`Solves`).

The internal variables live at the points of the mesh (`Point`); they stay admissible and the accumulated plastic strain does not decrease, equilibrium or not
(`C90_history`), the forces are in balance (`C90_balance`), what is stored is the state of the converged solution (`C90_repeat`), and a body strained uniformly behaves as one
material point (`C90_uniform`, `C90_patch`).
-/

noncomputable section
namespace Serac.C90
open Serac.Tensor Serac.Transform Serac.Kernels Serac.Solid Serac.J2 Finset
open Serac.C71 (M Shapes mem_zipIdx_fst getD_zipIdx)
open Serac.C32 (Good Adm hooke strain deviator mises frob eta)
open scoped Matrix

/-! ## Spec at a point -/

/-- Product of two tensors. -/
def dd (A B : M 3) : ℝ := ∑ i, ∑ j, A i j * B i j

/-- Energy stored at a point: that of the elastic strain and that of kinematic hardening. -/
def stored (P : Params) (st : J2.State) (H : M 3) : ℝ :=
  1 / 2 * dd (hooke P (strain H - st.plasticStrain)) (strain H - st.plasticStrain) + 1 / 3 * P.Hk * dd st.plasticStrain st.plasticStrain

/-- What an implicit step adds to the dissipation: the energy of the increments. -/
def lag (P : Params) (st st' : J2.State) (H H' : M 3) : ℝ :=
  1 / 2 * dd (hooke P ((strain H' - st'.plasticStrain) - (strain H - st.plasticStrain))) ((strain H' - st'.plasticStrain) - (strain H - st.plasticStrain)) +
    1 / 3 * P.Hk * dd (st'.plasticStrain - st.plasticStrain) (st'.plasticStrain - st.plasticStrain)

theorem dd_add (A B C : M 3) : dd A (B + C) = dd A B + dd A C := by simp only [dd, Matrix.add_apply, mul_add, sum_add_distrib]
theorem dd_sub (A B C : M 3) : dd A (B - C) = dd A B - dd A C := by simp only [dd, Matrix.sub_apply, mul_sub, sum_sub_distrib]
theorem dd_smul (A B : M 3) (c : ℝ) : dd A (c • B) = c * dd A B := by simp only [dd, Matrix.smul_apply, smul_eq_mul, mul_sum]; simp only [mul_left_comm]
theorem dd_comm (A B : M 3) : dd A B = dd B A := by simp only [dd, mul_comm]
theorem dd_one (A : M 3) : dd 1 A = A.trace := by simp [dd, Matrix.one_apply, Matrix.trace]

theorem dd_symm {A : M 3} (h : Aᵀ = A) (H : M 3) : dd A (strain H) = dd A H := by
  have e : dd A Hᵀ = dd A H := by
    unfold dd
    rw [sum_comm]
    refine sum_congr rfl fun i _ => sum_congr rfl fun j _ => ?_
    rw [Matrix.transpose_apply, show A j i = A i j from congrFun (congrFun h i) j]
  rw [strain, dd_smul, dd_add, e]
  ring

/-- Hooke's law is symmetric. -/
theorem hooke_dd (P : Params) (a b : M 3) : dd (hooke P a) b = P.E / (3 * (1 - 2 * P.nu)) * a.trace * b.trace + P.E / (1 + P.nu) * (dd a b - a.trace * b.trace / 3) := by
  rw [hooke, dd_comm, dd_add, dd_smul, dd_smul, dd_comm _ 1, dd_one, deviator, dd_sub, dd_smul, dd_comm _ 1, dd_one, dd_comm b a]
  ring

theorem hooke_symm (P : Params) {e : M 3} (he : eᵀ = e) : (hooke P e)ᵀ = hooke P e := by
  simp only [hooke, deviator, Matrix.transpose_add, Matrix.transpose_sub, Matrix.transpose_smul, Matrix.transpose_one, he]

theorem dd_self_nonneg (A : M 3) : 0 ≤ dd A A := sum_nonneg fun _ _ => sum_nonneg fun _ _ => mul_self_nonneg _

theorem dev_nonneg (A : M 3) : 0 ≤ dd A A - A.trace * A.trace / 3 := by
  have h := dd_self_nonneg (deviator A)
  have e : dd (deviator A) (deviator A) = dd A A - A.trace * A.trace / 3 := by
    have h1 : dd (1 : M 3) 1 = 3 := by rw [dd_one]; simp
    rw [deviator, dd_sub, dd_comm _ A, dd_sub, dd_smul, dd_smul, dd_comm A 1, dd_one, dd_comm _ 1, dd_sub, dd_smul, dd_one, h1]
    ring
  rwa [← e]

theorem hooke_nonneg {P : Params} (hP : Good P) (hnu : P.nu < 1 / 2) (a : M 3) : 0 ≤ dd (hooke P a) a := by
  rw [hooke_dd]
  have h1 : 0 ≤ P.E / (3 * (1 - 2 * P.nu)) := div_nonneg hP.E.le (by linarith)
  have h2 : 0 ≤ P.E / (1 + P.nu) := div_nonneg hP.E.le (by linarith [hP.nu])
  rw [mul_assoc]
  exact add_nonneg (mul_nonneg h1 (mul_self_nonneg _)) (mul_nonneg h2 (dev_nonneg a))

/-- The work of the stress on the increment of plastic strain, less the part that is stored: equivalent stress times increment of the accumulated strain. -/
theorem plastic_work {P : Params} (hP : Good P) {st st' : J2.State} (hst : Adm st) {H σ : M 3} {r : Option ScalarSolver.Result} (h : update P st H = some (σ, st', r)) :
    dd σ (st'.plasticStrain - st.plasticStrain) - 2 / 3 * P.Hk * dd st'.plasticStrain (st'.plasticStrain - st.plasticStrain) =
      mises P.Hk σ st'.plasticStrain * (st'.eqps - st.eqps) := by
  have hadm := (C32.C32_invariants hP hst h).1
  have htr : (st'.plasticStrain - st.plasticStrain : M 3).trace = 0 := by rw [Matrix.trace_sub, hadm.trace, hst.trace, sub_zero]
  have hdev : dd σ (st'.plasticStrain - st.plasticStrain) = dd (deviator σ) (st'.plasticStrain - st.plasticStrain) := by
    generalize (st'.plasticStrain - st.plasticStrain : M 3) = D at htr
    rw [deviator, dd_comm (σ - _), dd_sub, dd_smul, dd_comm _ 1, dd_one, htr, mul_zero, sub_zero, dd_comm]
  have hsub : dd σ (st'.plasticStrain - st.plasticStrain) - 2 / 3 * P.Hk * dd st'.plasticStrain (st'.plasticStrain - st.plasticStrain) =
      dd (deviator σ - (2 / 3 * P.Hk) • st'.plasticStrain) (st'.plasticStrain - st.plasticStrain) := by
    rw [hdev]
    generalize (st'.plasticStrain - st.plasticStrain : M 3) = D
    rw [dd_comm (deviator σ - _), dd_sub, dd_smul, dd_comm _ (deviator σ), dd_comm _ st'.plasticStrain]
  rw [hsub]
  rcases C32.update_cases hP hst H with ⟨-, h'⟩ | ⟨r', hq, hY, hx, hx2, -, h'⟩ <;> rw [h'] at h <;> cases h
  · simp [dd]
  · dsimp only
    have he : deviator (hooke P (strain H - st.plasticStrain - (r'.x * (3 / 2) / (Real.sqrt (3 / 2) * frob (eta P (strain H - st.plasticStrain) st.plasticStrain))) •
        eta P (strain H - st.plasticStrain) st.plasticStrain)) - (2 / 3 * P.Hk) • (st.plasticStrain + (r'.x * (3 / 2) / (Real.sqrt (3 / 2) *
        frob (eta P (strain H - st.plasticStrain) st.plasticStrain))) • eta P (strain H - st.plasticStrain) st.plasticStrain) =
        (1 - (3 * shear P + P.Hk) * r'.x / (Real.sqrt (3 / 2) * frob (eta P (strain H - st.plasticStrain) st.plasticStrain))) • eta P (strain H - st.plasticStrain) st.plasticStrain := by
      rw [C32.deviator_hooke hP]
      exact C32.eta_after P (strain H - st.plasticStrain) st.plasticStrain hst.trace r'.x _ hq.ne'
    rw [mises, he]
    have hYn := hP.nonneg _ hst.eqps
    rw [C32.sqrt_mul_frob_smul _ (by rw [sub_nonneg, div_le_one hq]; linarith), add_sub_cancel_left, add_sub_cancel_left, dd_smul, dd_comm, dd_smul]
    generalize eta P (strain H - st.plasticStrain) st.plasticStrain = η at hq ⊢
    have hf : dd η η = frob η ^ 2 := by
      have h0 : 0 ≤ ∑ i, ∑ j, η i j ^ 2 := sum_nonneg fun _ _ => sum_nonneg fun _ _ => sq_nonneg _
      rw [C32.frob, Real.sq_sqrt h0]
      simp only [dd, pow_two]
    have h32 : Real.sqrt (3 / 2) * Real.sqrt (3 / 2) = 3 / 2 := Real.mul_self_sqrt (by norm_num)
    rw [hf]
    generalize Real.sqrt (3 / 2) = a at hq h32 ⊢
    have hq' := hq.ne'
    have ha : a ≠ 0 := fun h => hq' (by rw [h, zero_mul])
    have hF : frob η ≠ 0 := fun h => hq' (by rw [h, mul_zero])
    rw [← h32]
    field_simp

/-- **C90, a point.**  The work of the new stress on the increment of the strain is stored, or dissipated by plastic flow against the equivalent stress, or lost in the implicit
step. -/
theorem C90_point {P : Params} (hP : Good P) {st st' : J2.State} (hst : Adm st) {H H' σ : M 3} {r : Option ScalarSolver.Result} (h : update P st H' = some (σ, st', r)) :
    dd σ (H' - H) = stored P st' H' - stored P st H + mises P.Hk σ st'.plasticStrain * (st'.eqps - st.eqps) + lag P st st' H H' := by
  have hadm := (C32.C32_invariants hP hst h).1
  have hσ := C32.C32_hooke hP hst h
  have hs : (σ)ᵀ = σ := by
    rw [hσ]
    refine hooke_symm P ?_
    rw [Matrix.transpose_sub, C32.strain_symm, hadm.symm]
  have hp := plastic_work hP hst h
  have e1 : dd σ (H' - H) = dd σ ((strain H' - st'.plasticStrain) - (strain H - st.plasticStrain)) + dd σ (st'.plasticStrain - st.plasticStrain) := by
    have : (strain H' - st'.plasticStrain) - (strain H - st.plasticStrain) + (st'.plasticStrain - st.plasticStrain) = strain H' - strain H := by abel
    rw [← dd_add, this, dd_sub, dd_sub, dd_symm hs, dd_symm hs]
  rw [e1, ← hp, hσ]
  unfold stored lag
  generalize strain H' - st'.plasticStrain = e'
  generalize strain H - st.plasticStrain = e
  generalize st'.plasticStrain = p'
  generalize st.plasticStrain = p
  have k1 : dd (hooke P (e' - e)) (e' - e) = dd (hooke P e') e' - 2 * dd (hooke P e') e + dd (hooke P e) e := by
    simp only [hooke_dd, Matrix.trace_sub, dd_sub, dd_comm (e' - e)]
    rw [dd_comm e e']
    ring
  have k2 : dd (p' - p) (p' - p) = dd p' p' - 2 * dd p' p + dd p p := by
    rw [dd_sub, dd_comm _ p', dd_comm _ p, dd_sub, dd_sub, dd_comm p p']
    ring
  rw [k1, k2, dd_sub, dd_sub, dd_sub]
  ring

/-! ## Bodies -/

section Bodies
variable {d : Dim} {St : Type} {Y : Memory d St} {s sF : Shapes}

theorem at_div {n p Q : ℕ} (h : Q < n) : (p * n + Q) / n = p ∧ (p * n + Q) % n = Q :=
  ⟨by rw [Nat.mul_comm, Nat.mul_add_div (by omega), Nat.div_eq_of_lt h, Nat.add_zero], by rw [Nat.mul_comm, Nat.mul_add_mod, Nat.mod_eq_of_lt h]⟩

theorem gradient_eq (hm : C71.Meaning Y.L.B.S s) (hn : C71.Nondegenerate Y.L.B.S s) (u : Ode.Vec Y.L.B.N) {ee : ℕ × ℕ} (h : ee ∈ Y.L.B.S.elements.zipIdx) {Q : ℕ}
    (hQ : Q < Y.L.B.S.E.npts) : Y.gradient u (ee.2 * Y.L.B.S.E.npts + Q) = C71.grad Y.L.B.S s (Y.L.B.nodal u) ee.1 Q := by
  obtain ⟨h1, h2⟩ := at_div (p := ee.2) hQ
  have hJ := hn ee.1 (mem_zipIdx_fst h) Q hQ
  unfold Memory.gradient
  dsimp only
  rw [h1, h2, getD_zipIdx h, C71.jacobian_eq hm h]
  have h3 := C71.interp_eq (d := d) hm.trial Y.L.B.S.conn (Y.L.B.nodal u) ee.1 Q
  unfold parentToPhysicalH1
  simp only [loadJ_store]
  rw [Transform.inv_eq d _ hJ]
  simp only [Option.map_some, Tensor.dot_eq]
  rw [h3]
  rfl

/-- The points of the body: numbers of the entries of the buffer. -/
def Point (Y : Memory d St) (p : ℕ) : Prop := ∃ ee ∈ Y.L.B.S.elements.zipIdx, ∃ Q < Y.L.B.S.E.npts, p = ee.2 * Y.L.B.S.E.npts + Q

/-- A set of internal variables that no update leaves, and for which the material has a result. -/
structure Closed (Y : Memory d St) (A : St → Prop) : Prop where
  defined : ∀ p st H, A st → ∃ σ st', Y.response p st H = some (σ, st')
  stays : ∀ p st H σ st', A st → Y.response p st H = some (σ, st') → A st'

theorem store_closed {A : St → Prop} (hA : Closed Y A) {st : ℕ → St} (h : ∀ p, A (st p)) (u : Ode.Vec Y.L.B.N) (p : ℕ) :
    Y.response p (st p) (Y.gradient u p) = some ((((Y.response p (st p) (Y.gradient u p)).map Prod.fst).getD fun _ _ => 0), Y.store st u p) ∧ A (Y.store st u p) := by
  obtain ⟨σ, st', h1⟩ := hA.defined p (st p) (Y.gradient u p) (h p)
  have h2 : Y.store st u p = st' := by
    unfold Memory.store
    rw [h1]
    rfl
  rw [h2, h1]
  exact ⟨rfl, hA.stays p _ _ _ _ (h p) h1⟩

/-- **C90, admissible histories.**  Whatever the solver does, internal variables stay in a set that updates do not leave. -/
theorem C90_closed {A : St → Prop} (hA : Closed Y A) (solve : Y.State → ℝ → Ode.Vec Y.L.B.N) (dts : List ℝ) (x : Y.State) (h : ∀ p, A (x.mem p)) (p : ℕ) :
    A ((Y.run solve x dts).mem p) := by
  induction dts generalizing x with
  | nil => exact h p
  | cons dt l ih => exact ih (Y.step solve x dt) fun p => (store_closed hA h _ p).2

/-- A relation between old and new internal variables that every update respects holds between start and end of a run. -/
theorem C90_relation {A : St → Prop} (hA : Closed Y A) (R : ℕ → St → St → Prop) (hr : ∀ p a, R p a a) (ht : ∀ p a b c, R p a b → R p b c → R p a c)
    (hu : ∀ p st H σ st', A st → Y.response p st H = some (σ, st') → R p st st') (solve : Y.State → ℝ → Ode.Vec Y.L.B.N) (dts : List ℝ) (x : Y.State)
    (h : ∀ p, A (x.mem p)) (p : ℕ) : R p (x.mem p) ((Y.run solve x dts).mem p) := by
  induction dts generalizing x with
  | nil => exact hr _ _
  | cons dt l ih =>
    have h1 := store_closed hA h (solve x dt) p
    exact ht _ _ _ _ (hu p _ _ _ _ (h p) h1.1) (ih (Y.step solve x dt) fun p => (store_closed hA h _ p).2)

theorem meaning_body (hm : C71.Meaning Y.L.B.S s) (st : ℕ → St) : C71.Meaning (Y.body st).B.S s := ⟨hm.trial, hm.test, hm.geom, hm.dim, hm.mem⟩

/-- The stress at the points of the body, geometric nonlinearity being off. -/
theorem stress_of {A : St → Prop} (hA : Closed Y A) (hm : C71.Meaning Y.L.B.S s) (hn : C71.Nondegenerate Y.L.B.S s) (hoff : Y.L.B.S.on = false) {st : ℕ → St}
    (h : ∀ p, A (st p)) (u : Ode.Vec Y.L.B.N) :
    C71.Stress (Y.body st).B.S s (Y.L.B.nodal u) fun ee Q => ((Y.response (ee.2 * Y.L.B.S.E.npts + Q) (st (ee.2 * Y.L.B.S.E.npts + Q))
      (Y.gradient u (ee.2 * Y.L.B.S.E.npts + Q))).map Prod.fst).getD fun _ _ => 0 := by
  intro ee hee Q hQ
  have h1 := (store_closed hA h u (ee.2 * Y.L.B.S.E.npts + Q)).1
  change Piola.materialFlux (ops d) Y.L.B.S.on (fun H => (Y.response (ee.2 * Y.L.B.S.E.npts + Q) (st (ee.2 * Y.L.B.S.E.npts + Q)) H).map Prod.fst)
    (C71.grad Y.L.B.S s (Y.L.B.nodal u) ee.1 Q) = _
  rw [← gradient_eq hm hn u hee hQ, hoff]
  unfold Piola.materialFlux
  beta_reduce
  rw [h1, Option.map_some, Option.bind_some, C33.C33_flux_off (C71.ops_exact d)]
  rfl

/-- Work of loads and supports in a step: body forces, loads on the boundary, reactions at constrained dofs. -/
def supplied (Y : Memory d St) (s sF : Shapes) (fixed : List (Fin Y.L.B.N)) (x y : Y.State) : ℝ :=
  C73.load Y.L.B s y.time (fun k => y.u k - x.u k) + C75.external Y.L sF y.time y.u (fun k => y.u k - x.u k) +
    ∑ k ∈ fixed.toFinset, y.reactions k * (y.u k - x.u k)

/-- The solver finds equilibrium. -/
def Solves (Y : Memory d St) (fixed : List (Fin Y.L.B.N)) (solve : Y.State → ℝ → Ode.Vec Y.L.B.N) (x : Y.State) (dt : ℝ) : Prop :=
  ∀ k ∉ fixed, (Y.body x.mem).residual (x.time + dt) (solve x dt) (fun _ => 0) k = 0

/-- Sum over the points with their volumes. -/
def total (Y : Memory d St) (s : Shapes) (f : ℕ → ℝ) : ℝ := C71.integral Y.L.B.S s fun ee Q => f (ee.2 * Y.L.B.S.E.npts + Q)

/-- **C90, work of a step.**  What loads and supports supply in a step is the work of the new stresses on the increments of the strain. -/
theorem C90_step {A : St → Prop} (hA : Closed Y A) (hm : C71.Meaning Y.L.B.S s) (hn : C71.Nondegenerate Y.L.B.S s) (hf : C73.Domains Y.L.B) (hF : C75.Meaning Y.L.F sF d)
    (hl : C75.AllGood Y.L sF) (hoff : Y.L.B.S.on = false) (fixed : List (Fin Y.L.B.N)) (solve : Y.State → ℝ → Ode.Vec Y.L.B.N) (x : Y.State) (dt : ℝ)
    (h : ∀ p, A (x.mem p)) (hs : Solves Y fixed solve x dt) :
    supplied Y s sF fixed x (Y.step solve x dt) = total Y s fun p => ∑ i, ∑ j,
      (((Y.response p (x.mem p) (Y.gradient (solve x dt) p)).map Prod.fst).getD fun _ _ => 0) i j * (Y.gradient (solve x dt) p i j - Y.gradient x.u p i j) := by
  have hw := C75.C75_weak_form (L := Y.body x.mem) (meaning_body hm _) hn hf hF hl (x.time + dt) (solve x dt) (fun _ => 0) (fun k => solve x dt k - x.u k) _
    (stress_of hA hm hn hoff h (solve x dt))
  have hr : ∑ k : Fin Y.L.B.N, (Y.body x.mem).residual (x.time + dt) (solve x dt) (fun _ => 0) k * (solve x dt k - x.u k) =
      ∑ k ∈ fixed.toFinset, (Y.body x.mem).residual (x.time + dt) (solve x dt) (fun _ => 0) k * (solve x dt k - x.u k) := by
    refine (sum_subset (subset_univ _) fun k _ hk => ?_).symm
    rw [hs k fun h => hk (List.mem_toFinset.2 h), zero_mul]
  have hi : C73.inertia (Y.body x.mem).B s (fun _ => 0) (fun k => solve x dt k - x.u k) = 0 := by
    unfold C73.inertia C73.integral C73.val C71.value Body.nodal
    simp
  rw [hi, zero_add] at hw
  have hk := hr.symm.trans hw
  unfold supplied
  change C73.load Y.L.B s (x.time + dt) (fun k => solve x dt k - x.u k) + C75.external Y.L sF (x.time + dt) (solve x dt) (fun k => solve x dt k - x.u k) +
    ∑ k ∈ fixed.toFinset, (Y.body x.mem).residual (x.time + dt) (solve x dt) (fun _ => 0) k * (solve x dt k - x.u k) = _
  rw [hk]
  change C73.load Y.L.B s (x.time + dt) (fun k => solve x dt k - x.u k) + C75.external Y.L sF (x.time + dt) (solve x dt) (fun k => solve x dt k - x.u k) +
    (_ - C73.load Y.L.B s (x.time + dt) (fun k => solve x dt k - x.u k) - C75.external Y.L sF (x.time + dt) (solve x dt) (fun k => solve x dt k - x.u k)) = _
  rw [add_comm, sub_sub, sub_add_cancel]
  unfold total C73.integral C71.integral
  refine congrArg List.sum (List.map_congr_left fun ee hee => sum_congr rfl fun Q hQ => ?_)
  congr 2
  refine sum_congr rfl fun i _ => sum_congr rfl fun j _ => ?_
  congr 1
  rw [gradient_eq hm hn _ hee (mem_range.1 hQ), gradient_eq hm hn _ hee (mem_range.1 hQ)]
  unfold C73.grd C71.grad
  have e : C71.parGrad (Y.body x.mem).B.S s ((Y.body x.mem).B.nodal fun k => solve x dt k - x.u k) ee.1 Q =
      C71.parGrad Y.L.B.S s (Y.L.B.nodal (solve x dt)) ee.1 Q - C71.parGrad Y.L.B.S s (Y.L.B.nodal x.u) ee.1 Q := by
    funext i k
    simp only [C71.parGrad, Matrix.sub_apply, ← sum_sub_distrib, ← sub_mul]
    rfl
  rw [e, Matrix.sub_mul]
  rfl

end Bodies

/-! ## Plastic bodies -/

section Plastic
variable {P : Params} {Y : Memory .three J2.State} {s sF : Shapes}

/-- The material of the body is `J2SmallStrain`. -/
def IsJ2 (P : Params) (Y : Memory .three J2.State) : Prop := Y.response = fun _ st H => (update P st H).map fun r => (r.1, r.2.1)

/-- The stress at a point of a state: Hooke's law for the elastic strain. -/
def stress (P : Params) (Y : Memory .three J2.State) (x : Y.State) (p : ℕ) : M 3 := hooke P (strain (Y.gradient x.u p) - (x.mem p).plasticStrain)

/-- Stored energy of the body. -/
def energy (P : Params) (Y : Memory .three J2.State) (s : Shapes) (x : Y.State) : ℝ := total Y s fun p => stored P (x.mem p) (Y.gradient x.u p)

/-- Heat of plastic flow in a step: equivalent stress times growth of the accumulated plastic strain. -/
def flow (P : Params) (Y : Memory .three J2.State) (s : Shapes) (x y : Y.State) : ℝ :=
  total Y s fun p => mises P.Hk (stress P Y y p) (y.mem p).plasticStrain * ((y.mem p).eqps - (x.mem p).eqps)

/-- What the implicit step loses. -/
def loss (P : Params) (Y : Memory .three J2.State) (s : Shapes) (x y : Y.State) : ℝ :=
  total Y s fun p => lag P (x.mem p) (y.mem p) (Y.gradient x.u p) (Y.gradient y.u p)

/-- A quantity of a step, added up over the steps of a run. -/
def along {d : Dim} {St : Type} (Y : Memory d St) (q : Y.State → Y.State → ℝ) (solve : Y.State → ℝ → Ode.Vec Y.L.B.N) : List ℝ → Y.State → ℝ
  | [], _ => 0
  | dt :: l, x => q x (Y.step solve x dt) + along Y q solve l (Y.step solve x dt)

/-- Something about every step of a run. -/
def everyStep {d : Dim} {St : Type} (Y : Memory d St) (q : Y.State → ℝ → Prop) (solve : Y.State → ℝ → Ode.Vec Y.L.B.N) : List ℝ → Y.State → Prop
  | [], _ => True
  | dt :: l, x => q x dt ∧ everyStep Y q solve l (Y.step solve x dt)

theorem closed (hP : Good P) (hY : IsJ2 P Y) : Closed Y Adm := by
  constructor
  · intro p st H hst
    obtain ⟨σ, st', r, h⟩ := C32.C32_defined hP hst H
    exact ⟨σ, st', by rw [hY]; beta_reduce; rw [h]; rfl⟩
  · intro p st H σ st' hst h
    rw [hY] at h
    obtain ⟨⟨a, b, r⟩, h1, h2⟩ := Option.map_eq_some_iff.1 h
    cases h2
    exact (C32.C32_invariants hP hst h1).1

theorem updated (hP : Good P) (hY : IsJ2 P Y) {st : ℕ → J2.State} (h : ∀ p, Adm (st p)) (u : Ode.Vec Y.L.B.N) (p : ℕ) :
    ∃ r, update P (st p) (Y.gradient u p) = some (hooke P (strain (Y.gradient u p) - (Y.store st u p).plasticStrain), Y.store st u p, r) ∧
      Y.response p (st p) (Y.gradient u p) = some (hooke P (strain (Y.gradient u p) - (Y.store st u p).plasticStrain), Y.store st u p) := by
  obtain ⟨σ, st', r, h1⟩ := C32.C32_defined hP (h p) (Y.gradient u p)
  have hσ := C32.C32_hooke hP (h p) h1
  have h2 : Y.response p (st p) (Y.gradient u p) = some (σ, st') := by rw [hY]; beta_reduce; rw [h1]; rfl
  have h3 : Y.store st u p = st' := by
    unfold Memory.store
    rw [h2]
    rfl
  rw [h3, ← hσ]
  exact ⟨r, h1, h2⟩

/-- **C90, histories.**  Whatever the solver returns and whatever the step sizes: at every point plastic strains stay symmetric and traceless, and the accumulated plastic strain
never decreases. -/
theorem C90_history (hP : Good P) (hY : IsJ2 P Y) (solve : Y.State → ℝ → Ode.Vec Y.L.B.N) (dts : List ℝ) (x : Y.State) (h : ∀ p, Adm (x.mem p)) (p : ℕ) :
    Adm ((Y.run solve x dts).mem p) ∧ (x.mem p).eqps ≤ ((Y.run solve x dts).mem p).eqps := by
  refine ⟨C90_closed (closed hP hY) solve dts x h p, ?_⟩
  refine C90_relation (closed hP hY) (fun _ a b => a.eqps ≤ b.eqps) (fun _ _ => le_rfl) (fun _ _ _ _ => le_trans) (fun p st H σ st' hst h1 => ?_) solve dts x h p
  rw [hY] at h1
  obtain ⟨⟨a, b, r⟩, h2, h3⟩ := Option.map_eq_some_iff.1 h1
  cases h3
  exact (C32.C32_invariants hP hst h2).2.1

theorem total_congr {d : Dim} {St : Type} {Y : Memory d St} {f g : ℕ → ℝ} (h : ∀ p, f p = g p) : total Y s f = total Y s g := by rw [funext h]

theorem total_add {d : Dim} {St : Type} {Y : Memory d St} (f g : ℕ → ℝ) : total Y s (fun p => f p + g p) = total Y s f + total Y s g := by
  unfold total C71.integral
  simp only [mul_add, sum_add_distrib, List.sum_map_add]

theorem total_nonneg {d : Dim} {St : Type} {Y : Memory d St} (hv : C73.Volumes Y.L.B s) {f : ℕ → ℝ} (h : ∀ p, 0 ≤ f p) : 0 ≤ total Y s f :=
  C73.integral_nonneg hv fun _ _ _ _ => h _

/-- **C90, balance of energy of a step.**  The work of loads and supports is stored, or turned to heat by plastic flow, or lost by the implicit step. -/
theorem C90_energy (hP : Good P) (hY : IsJ2 P Y) (hm : C71.Meaning Y.L.B.S s) (hn : C71.Nondegenerate Y.L.B.S s) (hf : C73.Domains Y.L.B) (hF : C75.Meaning Y.L.F sF .three)
    (hl : C75.AllGood Y.L sF) (hoff : Y.L.B.S.on = false) (fixed : List (Fin Y.L.B.N)) (solve : Y.State → ℝ → Ode.Vec Y.L.B.N) (x : Y.State) (dt : ℝ)
    (h : ∀ p, Adm (x.mem p)) (hs : Solves Y fixed solve x dt) :
    supplied Y s sF fixed x (Y.step solve x dt) = energy P Y s (Y.step solve x dt) - energy P Y s x + flow P Y s x (Y.step solve x dt) + loss P Y s x (Y.step solve x dt) := by
  rw [C90_step (closed hP hY) hm hn hf hF hl hoff fixed solve x dt h hs]
  have key : ∀ p, (∑ i, ∑ j, (((Y.response p (x.mem p) (Y.gradient (solve x dt) p)).map Prod.fst).getD fun _ _ => 0) i j * (Y.gradient (solve x dt) p i j - Y.gradient x.u p i j)) +
      stored P (x.mem p) (Y.gradient x.u p) = stored P (Y.store x.mem (solve x dt) p) (Y.gradient (solve x dt) p) +
      mises P.Hk (stress P Y (Y.step solve x dt) p) (Y.store x.mem (solve x dt) p).plasticStrain * ((Y.store x.mem (solve x dt) p).eqps - (x.mem p).eqps) +
      lag P (x.mem p) (Y.store x.mem (solve x dt) p) (Y.gradient x.u p) (Y.gradient (solve x dt) p) := by
    intro p
    obtain ⟨r, h1, h2⟩ := updated hP hY h (solve x dt) p
    rw [h2]
    have h3 := C90_point hP (h p) (H := Y.gradient x.u p) h1
    have h4 : (∑ i, ∑ j, (((some (hooke P (strain (Y.gradient (solve x dt) p) - (Y.store x.mem (solve x dt) p).plasticStrain), Y.store x.mem (solve x dt) p)).map Prod.fst).getD
        fun _ _ => 0) i j * (Y.gradient (solve x dt) p i j - Y.gradient x.u p i j)) =
        dd (hooke P (strain (Y.gradient (solve x dt) p) - (Y.store x.mem (solve x dt) p).plasticStrain)) (Y.gradient (solve x dt) p - Y.gradient x.u p : M 3) := rfl
    rw [h4, h3]
    unfold stress
    change _ = stored P (Y.store x.mem (solve x dt) p) (Y.gradient (solve x dt) p) +
      mises P.Hk (hooke P (strain (Y.gradient (solve x dt) p) - (Y.store x.mem (solve x dt) p).plasticStrain)) (Y.store x.mem (solve x dt) p).plasticStrain * _ + _
    ring
  have hk := total_congr (Y := Y) (s := s) key
  rw [total_add, total_add, total_add] at hk
  have e1 : energy P Y s (Y.step solve x dt) = total Y s fun p => stored P (Y.store x.mem (solve x dt) p) (Y.gradient (solve x dt) p) := rfl
  have e2 : flow P Y s x (Y.step solve x dt) = total Y s fun p => mises P.Hk (stress P Y (Y.step solve x dt) p) (Y.store x.mem (solve x dt) p).plasticStrain *
    ((Y.store x.mem (solve x dt) p).eqps - (x.mem p).eqps) := rfl
  have e3 : loss P Y s x (Y.step solve x dt) = total Y s fun p => lag P (x.mem p) (Y.store x.mem (solve x dt) p) (Y.gradient x.u p) (Y.gradient (solve x dt) p) := rfl
  have e4 : energy P Y s x = total Y s fun p => stored P (x.mem p) (Y.gradient x.u p) := rfl
  rw [e1, e2, e3, e4]
  linear_combination hk

/-- **C90, balance of energy of a run**, with any step sizes. -/
theorem C90_run (hP : Good P) (hY : IsJ2 P Y) (hm : C71.Meaning Y.L.B.S s) (hn : C71.Nondegenerate Y.L.B.S s) (hf : C73.Domains Y.L.B) (hF : C75.Meaning Y.L.F sF .three)
    (hl : C75.AllGood Y.L sF) (hoff : Y.L.B.S.on = false) (fixed : List (Fin Y.L.B.N)) (solve : Y.State → ℝ → Ode.Vec Y.L.B.N) (dts : List ℝ) (x : Y.State)
    (h : ∀ p, Adm (x.mem p)) (hs : everyStep Y (Solves Y fixed solve) solve dts x) :
    along Y (supplied Y s sF fixed) solve dts x = energy P Y s (Y.run solve x dts) - energy P Y s x + along Y (flow P Y s) solve dts x + along Y (loss P Y s) solve dts x := by
  induction dts generalizing x with
  | nil => simp [along, Memory.run]
  | cons dt l ih =>
    have h1 := C90_energy hP hY hm hn hf hF hl hoff fixed solve x dt h hs.1
    have h2 := ih (Y.step solve x dt) (fun p => (store_closed (closed hP hY) h _ p).2) hs.2
    have h3 : Y.run solve x (dt :: l) = Y.run solve (Y.step solve x dt) l := rfl
    unfold along
    rw [h1, h2, h3]
    ring

theorem mises_nonneg (k : ℝ) (σ p : M 3) : 0 ≤ mises k σ p := mul_nonneg (Real.sqrt_nonneg _) (C32.frob_nonneg _)

theorem stored_nonneg (hP : Good P) (hnu : P.nu < 1 / 2) (st : J2.State) (H : M 3) : 0 ≤ stored P st H :=
  add_nonneg (mul_nonneg (by norm_num) (hooke_nonneg hP hnu _)) (mul_nonneg (mul_nonneg (by norm_num) hP.Hk) (dd_self_nonneg _))

theorem lag_nonneg (hP : Good P) (hnu : P.nu < 1 / 2) (st st' : J2.State) (H H' : M 3) : 0 ≤ lag P st st' H H' :=
  add_nonneg (mul_nonneg (by norm_num) (hooke_nonneg hP hnu _)) (mul_nonneg (mul_nonneg (by norm_num) hP.Hk) (dd_self_nonneg _))

/-- **C90, dissipation.**  Neither plastic flow nor the implicit steps give energy back, along any run. -/
theorem C90_dissipation (hP : Good P) (hnu : P.nu < 1 / 2) (hY : IsJ2 P Y) (hv : C73.Volumes Y.L.B s) (solve : Y.State → ℝ → Ode.Vec Y.L.B.N) (dts : List ℝ) (x : Y.State)
    (h : ∀ p, Adm (x.mem p)) : 0 ≤ along Y (flow P Y s) solve dts x ∧ 0 ≤ along Y (loss P Y s) solve dts x ∧ 0 ≤ energy P Y s (Y.run solve x dts) := by
  refine ⟨?_, ?_, total_nonneg hv fun p => stored_nonneg hP hnu _ _⟩
  · induction dts generalizing x with
    | nil => exact le_rfl
    | cons dt l ih =>
      refine add_nonneg (total_nonneg hv fun p => mul_nonneg (mises_nonneg _ _ _) ?_) (ih (Y.step solve x dt) fun p => (store_closed (closed hP hY) h _ p).2)
      exact sub_nonneg.2 (C90_history hP hY solve [dt] x h p).2
  · induction dts generalizing x with
    | nil => exact le_rfl
    | cons dt l ih =>
      exact add_nonneg (total_nonneg hv fun p => lag_nonneg hP hnu _ _ _ _) (ih (Y.step solve x dt) fun p => (store_closed (closed hP hY) h _ p).2)

/-- **C90, passivity.**  The work done on a plastic body is at least the growth of its stored energy: a body that starts without stored energy never returns more than it
was given, whatever the loading programme. -/
theorem C90_passive (hP : Good P) (hnu : P.nu < 1 / 2) (hY : IsJ2 P Y) (hm : C71.Meaning Y.L.B.S s) (hn : C71.Nondegenerate Y.L.B.S s) (hf : C73.Domains Y.L.B)
    (hF : C75.Meaning Y.L.F sF .three) (hl : C75.AllGood Y.L sF) (hoff : Y.L.B.S.on = false) (hv : C73.Volumes Y.L.B s) (fixed : List (Fin Y.L.B.N))
    (solve : Y.State → ℝ → Ode.Vec Y.L.B.N) (dts : List ℝ) (x : Y.State) (h : ∀ p, Adm (x.mem p)) (hs : everyStep Y (Solves Y fixed solve) solve dts x) :
    energy P Y s (Y.run solve x dts) - energy P Y s x ≤ along Y (supplied Y s sF fixed) solve dts x ∧
      (energy P Y s x = 0 → 0 ≤ along Y (supplied Y s sF fixed) solve dts x) := by
  obtain ⟨h1, h2, h3⟩ := C90_dissipation hP hnu hY hv solve dts x h
  have h4 := C90_run hP hY hm hn hf hF hl hoff fixed solve dts x h hs
  constructor
  · linarith
  · intro h5
    linarith

/-- **C90, balance of forces and moments.**  Whatever the history, the nodal forces of the stresses add up to zero, and so do their moments. -/
theorem C90_balance (hP : Good P) (hY : IsJ2 P Y) (hm : C71.Meaning Y.L.B.S s) (hn : C71.Nondegenerate Y.L.B.S s) (hoff : Y.L.B.S.on = false) (hy : C71.Unity Y.L.B.S s)
    (X : Y.L.B.S.Nodal) (hX : C71.Positions Y.L.B.S s X) (st : ℕ → J2.State) (h : ∀ p, Adm (st p)) (u : Ode.Vec Y.L.B.N) :
    (∀ i, ∑ n, (Y.body st).B.S.residual (Y.L.B.nodal u) (fun _ _ => 0) n i = 0) ∧
      ∀ i j, ∑ n, (X n i * (Y.body st).B.S.residual (Y.L.B.nodal u) (fun _ _ => 0) n j - X n j * (Y.body st).B.S.residual (Y.L.B.nodal u) (fun _ _ => 0) n i) = 0 := by
  have hS := stress_of (closed hP hY) hm hn hoff h u
  refine ⟨fun i => (C71.C71_force (S := (Y.body st).B.S) (meaning_body hm _) hn hy _ (fun _ _ => 0) _ hS i).2, fun i j => ?_⟩
  have hsym : C71.Symmetric (Y.body st).B.S := by
    intro p H σ h1
    have h2 : (Y.response p (st p) H).map Prod.fst = some σ := h1
    rw [hY] at h2
    obtain ⟨σ', st', r, h3⟩ := C32.C32_defined hP (h p) H
    beta_reduce at h2
    rw [h3] at h2
    cases h2
    rw [C32.C32_hooke hP (h p) h3]
    exact hooke_symm P (by rw [Matrix.transpose_sub, C32.strain_symm, (C32.C32_invariants hP (h p) h3).1.symm])
  refine (C71.C71_moment_off (S := (Y.body st).B.S) (meaning_body hm _) hn X hX hsym hoff _ (fun _ _ => 0) _ hS i j).trans ?_
  unfold C71.integral
  simp [C71.value]

/-- **C90, the stored history is that of the solution**: for linear hardening an evaluation with the new internal variables at the new displacement gives the forces that the
step left as reactions, and stores the same internal variables again.  A second step to the same displacement changes nothing. -/
theorem C90_repeat (hP : Good P) (hY : IsJ2 P Y) (Hi : ℝ) (hH : 0 ≤ Hi) (hYl : P.Y = linearHardening P.sigmaY Hi) (hdY : P.dY = fun _ => Hi) (hm : C71.Meaning Y.L.B.S s)
    (hn : C71.Nondegenerate Y.L.B.S s) (hF : C75.Meaning Y.L.F sF .three) (hf : C73.Domains Y.L.B) (hl : C75.AllGood Y.L sF) (hoff : Y.L.B.S.on = false)
    (st : ℕ → J2.State) (h : ∀ p, Adm (st p)) (u : Ode.Vec Y.L.B.N) (t : ℝ) :
    Y.store (Y.store st u) u = Y.store st u ∧ ∀ a, (Y.body (Y.store st u)).residual t u a = (Y.body st).residual t u a := by
  have h' : ∀ p, Adm (Y.store st u p) := fun p => (store_closed (closed hP hY) h u p).2
  have key : ∀ p, Y.response p (Y.store st u p) (Y.gradient u p) = Y.response p (st p) (Y.gradient u p) := by
    intro p
    obtain ⟨r, h1, h2⟩ := updated hP hY h u p
    rw [h2, hY]
    beta_reduce
    rw [(C32.C32_linear hP Hi hH hYl hdY (h p) h1).2.2]
    rfl
  constructor
  · funext p
    obtain ⟨r, h1, h2⟩ := updated hP hY h u p
    have h3 : Y.store (Y.store st u) u p = ((Y.response p (Y.store st u p) (Y.gradient u p)).map Prod.snd).getD (Y.store st u p) := rfl
    rw [h3, key, h2]
    rfl
  · intro a
    have hS := stress_of (closed hP hY) hm hn hoff h u
    have hS' := stress_of (closed hP hY) hm hn hoff h' u
    simp only [key] at hS'
    refine funext fun k : Fin Y.L.B.N => ?_
    have e1 := C75.C75_weak_form (L := Y.body st) (meaning_body hm _) hn hf hF hl t u a (Pi.single k 1) _ hS
    have e2 := C75.C75_weak_form (L := Y.body (Y.store st u)) (meaning_body hm _) hn hf hF hl t u a (Pi.single k 1) _ hS'
    have e : ∀ f : Ode.Vec Y.L.B.N, ∑ k', f k' * (Pi.single k 1 : Ode.Vec Y.L.B.N) k' = f k := fun f => by simp [Pi.single_apply]
    exact ((e _).symm.trans (e2.trans e1.symm)).trans (e _)

/-- **C90, elastic steps.**  Where the trial stress stays inside the yield surface at every point, the step leaves the internal variables alone, and the stress is that of the
elastic strain. -/
theorem C90_elastic (hP : Good P) (hY : IsJ2 P Y) (solve : Y.State → ℝ → Ode.Vec Y.L.B.N) (x : Y.State) (dt : ℝ) (h : ∀ p, Adm (x.mem p))
    (hin : ∀ p, Point Y p → mises P.Hk (hooke P (strain (Y.gradient (solve x dt) p) - (x.mem p).plasticStrain)) (x.mem p).plasticStrain ≤ P.Y (x.mem p).eqps) :
    (∀ p, Point Y p → (Y.step solve x dt).mem p = x.mem p) ∧ flow P Y s x (Y.step solve x dt) = 0 := by
  have h1 : ∀ p, Point Y p → (Y.step solve x dt).mem p = x.mem p := by
    intro p hp
    obtain ⟨σ, h2⟩ := (C32.C32_elastic hP (h p) (Y.gradient (solve x dt) p)).2 (by
      have h3 : 0 < tol * P.sigmaY := mul_pos (by norm_num [tol]) hP.sigmaY
      linarith [hin p hp])
    obtain ⟨r, h4, -⟩ := updated hP hY h (solve x dt) p
    rw [h2] at h4
    have h5 := Option.some.inj h4
    exact (congrArg (fun z => z.2.1) h5).symm
  refine ⟨h1, ?_⟩
  unfold flow total C71.integral
  refine List.sum_eq_zero fun y hy => ?_
  obtain ⟨ee, hee, rfl⟩ := List.mem_map.1 hy
  refine sum_eq_zero fun Q hQ => ?_
  beta_reduce
  rw [h1 _ ⟨ee, hee, Q, mem_range.1 hQ, rfl⟩, sub_self, mul_zero, mul_zero, mul_zero]

theorem grad_affine (hn : C71.Nondegenerate Y.L.B.S s) (hy : C71.Unity Y.L.B.S s) {X : Y.L.B.S.Nodal} (hX : C71.Positions Y.L.B.S s X) (A : M 3) (c : Fin 3 → ℝ) {e Q : ℕ}
    (he : e ∈ Y.L.B.S.elements) (hQ : Q < Y.L.B.S.E.npts) : C71.grad Y.L.B.S s (fun n i => (A *ᵥ X n) i + c i) e Q = A := by
  have h := C71.grad_moved hn hy hX (1 + A) c (fun _ _ => 0) he hQ
  have h0 : C71.grad Y.L.B.S s (fun _ _ => 0) e Q = 0 := by
    unfold C71.grad
    rw [show C71.parGrad Y.L.B.S s (fun _ _ => 0) e Q = 0 by funext i k; simp [C71.parGrad], Matrix.zero_mul]
  rw [h0, add_zero, Matrix.mul_one, add_sub_cancel_left] at h
  have e1 : (fun n i => (A *ᵥ X n) i + c i : Y.L.B.S.Nodal) = C71.moved (1 + A) c X fun _ _ => 0 := by
    funext n i
    unfold C71.moved
    have h1 : (fun k => X n k + 0) = X n := by simp
    simp [Matrix.add_mulVec]
    try ring
  rw [e1]
  exact h

/-- **C90, only the points of the mesh matter.**  The forces depend on the internal variables at the points of the elements. -/
theorem C90_local (hP : Good P) (hY : IsJ2 P Y) (hm : C71.Meaning Y.L.B.S s) (hn : C71.Nondegenerate Y.L.B.S s) (hoff : Y.L.B.S.on = false) {st st' : ℕ → J2.State}
    (h : ∀ p, Adm (st p)) (h' : ∀ p, Adm (st' p)) (heq : ∀ p, Point Y p → st p = st' p) (u acc : Y.L.B.S.Nodal) (hu : ∃ v, u = Y.L.B.nodal v) (n : Fin Y.L.B.S.nn) (i : Fin 3) :
    (Y.body st).B.S.residual u acc n i = (Y.body st').B.S.residual u acc n i := by
  obtain ⟨v, rfl⟩ := hu
  have hS := stress_of (closed hP hY) hm hn hoff h v
  have hS' := stress_of (closed hP hY) hm hn hoff h' v
  have e1 := C71.C71_nodal (S := (Y.body st).B.S) (meaning_body hm _) hn (Y.L.B.nodal v) acc _ hS n i
  have e2 := C71.C71_nodal (S := (Y.body st').B.S) (meaning_body hm _) hn (Y.L.B.nodal v) acc _ hS' n i
  refine (e1.trans ?_).trans e2.symm
  refine C71.integral_congr fun ee hee Q hQ => ?_
  rw [heq _ ⟨ee, hee, Q, hQ, rfl⟩]
  rfl

/-- The times at the ends of the steps. -/
def ends : ℝ → List ℝ → List ℝ
  | _, [] => []
  | t, dt :: l => (t + dt) :: ends (t + dt) l

/-- **C90, uniform straining.**  A body whose points have the same internal variables and whose displacement is made affine in every step follows, at all of its points, the
history of one material point. -/
theorem C90_uniform (hP : Good P) (hY : IsJ2 P Y) (hm : C71.Meaning Y.L.B.S s) (hn : C71.Nondegenerate Y.L.B.S s) (hy : C71.Unity Y.L.B.S s) (X : Y.L.B.S.Nodal)
    (hX : C71.Positions Y.L.B.S s X) (solve : Y.State → ℝ → Ode.Vec Y.L.B.N) (A : ℝ → M 3) (c : ℝ → Fin 3 → ℝ)
    (hs : ∀ x dt n i, Y.L.B.nodal (solve x dt) n i = (A (x.time + dt) *ᵥ X n) i + c (x.time + dt) i) (dts : List ℝ) (x : Y.State) (st : J2.State) (hst : Adm st)
    (hx : ∀ p, Point Y p → x.mem p = st) :
    ∃ st', history P ((ends x.time dts).map A) st = some st' ∧ ∀ p, Point Y p → (Y.run solve x dts).mem p = st' := by
  induction dts generalizing x st with
  | nil => exact ⟨st, rfl, hx⟩
  | cons dt l ih =>
    obtain ⟨σ, st1, r, h1⟩ := C32.C32_defined hP hst (A (x.time + dt))
    have h2 : ∀ p, Point Y p → (Y.step solve x dt).mem p = st1 := by
      rintro p ⟨ee, hee, Q, hQ, rfl⟩
      change ((Y.response _ (x.mem _) (Y.gradient (solve x dt) _)).map Prod.snd).getD (x.mem _) = _
      rw [hx _ ⟨ee, hee, Q, hQ, rfl⟩, gradient_eq hm hn _ hee hQ, show Y.L.B.nodal (solve x dt) = _ from funext fun n => funext fun i => hs x dt n i,
        grad_affine hn hy hX _ _ (mem_zipIdx_fst hee) hQ, hY]
      beta_reduce
      rw [h1]
      rfl
    obtain ⟨st', h3, h4⟩ := ih (Y.step solve x dt) st1 (C32.C32_invariants hP hst h1).1 h2
    refine ⟨st', ?_, h4⟩
    change (update P st (A (x.time + dt))).bind _ = _
    rw [h1]
    exact h3

/-- **C90, patch test.**  Such a body, of linear tetrahedra, is in equilibrium: there are forces on the nodes of its boundary only, those of the tractions of the stress of the
material point. -/
theorem C90_patch (hP : Good P) (hY : IsJ2 P Y) (hm : C71.Meaning Y.L.B.S s) (hn : C71.Nondegenerate Y.L.B.S s) (hoff : Y.L.B.S.on = false) (hy : C71.Unity Y.L.B.S s)
    {X : Y.L.B.S.Nodal} (ht : C71.Tetrahedra Y.L.B.S s X) (bdr : List (Fin Y.L.B.S.nn × Fin Y.L.B.S.nn × Fin Y.L.B.S.nn)) (hb : C71.Boundary3 Y.L.B.S bdr)
    (hX : C71.Positions Y.L.B.S s X) (mem : ℕ → J2.State) (h : ∀ p, Adm (mem p)) (st : J2.State) (hst : Adm st) (hx : ∀ p, Point Y p → mem p = st) (u : Ode.Vec Y.L.B.N) (A : M 3)
    (c : Fin 3 → ℝ) (hu : ∀ n i, Y.L.B.nodal u n i = (A *ᵥ X n) i + c i) :
    ∃ σ st' r, update P st A = some (σ, st', r) ∧ ∀ n i, (Y.body mem).B.S.residual (Y.L.B.nodal u) (fun _ _ => 0) n i =
      (bdr.map fun b => if b.1 = n ∨ b.2.1 = n ∨ b.2.2 = n then 1 / 6 * (σ *ᵥ C71.normal3 X b.1 b.2.1 b.2.2) i else 0).sum := by
  obtain ⟨σ, st', r, h1⟩ := C32.C32_defined hP hst A
  refine ⟨σ, st', r, h1, fun n i => ?_⟩
  refine (C90_local (st' := fun _ => st) hP hY hm hn hoff h (fun _ => hst) hx _ _ ⟨u, rfl⟩ n i).trans ?_
  rw [show Y.L.B.nodal u = _ from funext fun n => funext fun i => hu n i]
  have h2 : Piola.materialFlux Piola.ops3 Y.L.B.S.on (fun H => (Y.response 0 st H).map Prod.fst) A = some σ := by
    rw [hoff]
    unfold Piola.materialFlux
    beta_reduce
    rw [hY]
    beta_reduce
    rw [h1]
    exact C33.C33_flux_off (C71.ops_exact .three) σ A
  refine C71.C71_patch_tetrahedra (S := (Y.body fun _ => st).B.S) (meaning_body hm _) hn hy ⟨ht.1, ht.2, ht.3, ht.4, ht.5, ht.6, ht.7⟩ bdr hb hX A c
    (fun H => (Y.response 0 st H).map Prod.fst) (fun p => ?_) σ h2 n i
  change (fun H => (Y.response p st H).map Prod.fst) = _
  rw [hY]

end Plastic

/-! ## Example: shear of four tetrahedra around an inner node -/

def steel : Params := ⟨5 / 2, 1 / 4, 1, 1, linearHardening 1 (1 / 10), fun _ => 1 / 10⟩

theorem steel_good : Good steel := by
  refine ⟨by norm_num [steel], by norm_num [steel], by norm_num [steel], by norm_num [steel], by norm_num [steel], fun a ha => ?_, fun a b _ hab => ?_, fun _ _ => by norm_num [steel]⟩
  · simp only [steel, linearHardening]
    linarith
  · simp only [steel, linearHardening]
    linarith

def exMemory : Memory .three J2.State where
  L := ⟨{ C89.exBody with S := { C89.exBody.S with on := false } }, (C89.exModule fun _ => 1).F, []⟩
  response := fun _ st H => (update steel st H).map fun r => (r.1, r.2.1)

theorem ex_j2 : IsJ2 steel exMemory := rfl

theorem ex_meaning : C71.Meaning exMemory.L.B.S C89.exShapes :=
  have h := C89.ex_meaning fun _ => 1
  ⟨h.1, h.2, h.3, h.4, h.5⟩

theorem ex_tetrahedra : C71.Tetrahedra exMemory.L.B.S C89.exShapes C89.exPos :=
  have h := C89.ex_tetrahedra fun _ => 1
  ⟨h.1, h.2, h.3, h.4, h.5, h.6, h.7⟩

/-- Shear. -/
def shearing (γ : ℝ) : M 3 := !![0, γ, 0; 0, 0, 0; 0, 0, 0]

/-- Dofs of the outer nodes. -/
def exFixed : List (Fin 15) := (List.finRange 15).filter fun k => k.1 < 12

def exSolve (γ : ℝ → ℝ) (x : exMemory.State) (dt : ℝ) : Ode.Vec 15 := fun k =>
  (shearing (γ (x.time + dt)) *ᵥ C89.exPos (finProdFinEquiv.symm k : Fin 5 × Fin 3).1) (finProdFinEquiv.symm k : Fin 5 × Fin 3).2

def virgin : J2.State := ⟨(0 : M 3), 0⟩

theorem virgin_strain : virgin.plasticStrain = (0 : M 3) := rfl

theorem virgin_adm : Adm virgin := ⟨Matrix.transpose_zero, Matrix.trace_zero _ _, le_rfl⟩

def exStart : exMemory.State := ⟨0, fun _ => 0, fun _ => virgin, fun _ => 0⟩

theorem exSolve_nodal (γ : ℝ → ℝ) (x : exMemory.State) (dt : ℝ) (n : Fin 5) (i : Fin 3) :
    exMemory.L.B.nodal (exSolve γ x dt) n i = (shearing (γ (x.time + dt)) *ᵥ C89.exPos n) i + (0 : Fin 3 → ℝ) i := by
  change (shearing (γ (x.time + dt)) *ᵥ C89.exPos (finProdFinEquiv.symm (finProdFinEquiv (n, i)) : Fin 5 × Fin 3).1) (finProdFinEquiv.symm (finProdFinEquiv (n, i)) : Fin 5 × Fin 3).2 = _
  rw [Equiv.symm_apply_apply]
  simp

theorem residual_plain {d : Dim} (L : Loaded d) (h1 : L.loads = []) (h2 : L.B.forces = []) (t : ℝ) (u a : Ode.Vec L.B.N) (k : Fin L.B.N) :
    L.residual t u a k = L.B.S.residual (L.B.nodal u) (L.B.nodal a) (L.B.num.symm k).1 (L.B.num.symm k).2 := by
  unfold Loaded.residual Body.residual
  rw [h1, h2]
  rfl

theorem ex_inner {k : Fin 15} (hk : k ∉ exFixed) : (finProdFinEquiv.symm k : Fin 5 × Fin 3).1 = 4 := by
  have h : ¬ k.1 < 12 := fun h => hk (List.mem_filter.2 ⟨List.mem_finRange _, by simpa using h⟩)
  refine Fin.ext ?_
  change k.1 / 3 = 4
  omega

/-- Moved along with the outer nodes, the inner node is in equilibrium in every step, whatever the programme of shear. -/
theorem ex_solves (γ : ℝ → ℝ) (dts : List ℝ) : ∀ (x : exMemory.State) (st : J2.State), (∀ p, Adm (x.mem p)) → Adm st → (∀ p, Point exMemory p → x.mem p = st) →
    everyStep exMemory (Solves exMemory exFixed (exSolve γ)) (exSolve γ) dts x := by
  induction dts with
  | nil => exact fun _ _ _ _ _ => trivial
  | cons dt l ih =>
    intro x st hx hst hp
    refine ⟨fun k hk => ?_, ?_⟩
    · obtain ⟨σ, st', r, -, h⟩ := C90_patch steel_good ex_j2 ex_meaning (C89.ex_nondegenerate fun _ => 1) rfl (C89.ex_unity fun _ => 1) ex_tetrahedra _ (C89.ex_boundary fun _ => 1)
        (C89.ex_positions fun _ => 1) x.mem hx st hst hp (exSolve γ x dt) _ 0 (exSolve_nodal γ x dt)
      have h5 : ∀ i : Fin 3, (([(1, 2, 3), (0, 3, 2), (0, 1, 3), (0, 2, 1)] : List (Fin 5 × Fin 5 × Fin 5)).map fun b =>
          if b.1 = (4 : Fin 5) ∨ b.2.1 = (4 : Fin 5) ∨ b.2.2 = (4 : Fin 5) then 1 / 6 * (σ *ᵥ C71.normal3 C89.exPos b.1 b.2.1 b.2.2) i else 0).sum = 0 := by
        intro i
        simp [show ¬ ((1 : Fin 5) = 4) by decide, show ¬ ((2 : Fin 5) = 4) by decide, show ¬ ((3 : Fin 5) = 4) by decide, show ¬ ((0 : Fin 5) = 4) by decide]
      refine (residual_plain (exMemory.body x.mem) rfl rfl _ _ _ k).trans ?_
      have h4 : ((exMemory.body x.mem).B.num.symm k).1 = (4 : Fin 5) := ex_inner hk
      rw [h4]
      exact (h (4 : Fin 5) _).trans (h5 _)
    · obtain ⟨st', h1, h2⟩ := C90_uniform steel_good ex_j2 ex_meaning (C89.ex_nondegenerate fun _ => 1) (C89.ex_unity fun _ => 1) C89.exPos (C89.ex_positions fun _ => 1)
        (exSolve γ) (fun t => shearing (γ t)) (fun _ => 0) (exSolve_nodal γ) [dt] x st hst hp
      obtain ⟨st'', h3, h4, -⟩ := C32.C32_history steel_good [shearing (γ (x.time + dt))] hst
      obtain rfl : st'' = st' := Option.some.inj (h3.symm.trans h1)
      exact ih _ st'' (fun p => (store_closed (closed steel_good ex_j2) hx _ p).2) h4 h2

theorem ex_volumes : C73.Volumes exMemory.L.B C89.exShapes := fun _ he _ hQ =>
  (mul_pos (by simp [C89.exShapes, C89.tet4]) (C89.ex_det (fun _ => 1) he hQ)).le

theorem ex_energy : energy steel exMemory C89.exShapes exStart = 0 := by
  have h : ∀ p, Point exMemory p → stored steel (exStart.mem p) (exMemory.gradient exStart.u p) = 0 := by
    rintro p ⟨ee, hee, Q, hQ, rfl⟩
    have h1 : exMemory.gradient exStart.u (ee.2 * exMemory.L.B.S.E.npts + Q) = (0 : M 3) := by
      rw [gradient_eq ex_meaning (C89.ex_nondegenerate fun _ => 1) _ hee hQ]
      unfold C71.grad
      rw [show C71.parGrad exMemory.L.B.S C89.exShapes (exMemory.L.B.nodal exStart.u) ee.1 Q = 0 by
        funext i k
        exact sum_eq_zero fun _ _ => zero_mul _, Matrix.zero_mul]
    rw [h1]
    change stored steel virgin (0 : M 3) = 0
    unfold stored
    rw [virgin_strain]
    simp [dd, strain]
  unfold energy total C71.integral
  refine List.sum_eq_zero fun y hy => ?_
  obtain ⟨ee, hee, rfl⟩ := List.mem_map.1 hy
  refine sum_eq_zero fun Q hQ => ?_
  beta_reduce
  rw [h _ ⟨ee, hee, Q, mem_range.1 hQ, rfl⟩, mul_zero, mul_zero]

/-- Whatever the programme of shear and the steps, the supports do not lose work. -/
example (γ : ℝ → ℝ) (dts : List ℝ) : 0 ≤ along exMemory (supplied exMemory C89.exShapes C72.exShapes exFixed) (exSolve γ) dts exStart :=
  (C90_passive steel_good (by norm_num [steel]) ex_j2 ex_meaning (C89.ex_nondegenerate fun _ => 1) (fun _ h => absurd h List.not_mem_nil) (C89.ex_faces fun _ => 1)
    (fun _ h => absurd h List.not_mem_nil) rfl ex_volumes exFixed (exSolve γ) dts exStart (fun _ => virgin_adm)
    (ex_solves γ dts exStart virgin (fun _ => virgin_adm) virgin_adm fun _ _ => rfl)).2 ex_energy

/-- Below the yield stress the inner variables stay; the forces are in balance whatever they are. -/
example (γ : ℝ → ℝ) (h : γ 1 = 1 / 2) (p : ℕ) (hp : Point exMemory p) : (exMemory.step (exSolve γ) exStart 1).mem p = virgin := by
  refine (C90_elastic (s := C89.exShapes) steel_good ex_j2 (exSolve γ) exStart 1 (fun _ => virgin_adm) ?_).1 p hp
  rintro p ⟨ee, hee, Q, hQ, rfl⟩
  have e : exMemory.gradient (exSolve γ exStart 1) (ee.2 * exMemory.L.B.S.E.npts + Q) = shearing (1 / 2) := by
    refine ((gradient_eq ex_meaning (C89.ex_nondegenerate fun _ => 1) (exSolve γ exStart 1) hee hQ).trans
      ((congrArg (fun v => C71.grad exMemory.L.B.S C89.exShapes v ee.1 Q) (funext fun n => funext fun i => exSolve_nodal γ exStart 1 n i)).trans
        (grad_affine (Y := exMemory) (C89.ex_nondegenerate fun _ => 1) (C89.ex_unity fun _ => 1) (C89.ex_positions fun _ => 1) _ _ (mem_zipIdx_fst hee) hQ))).trans ?_
    change shearing (γ (0 + 1)) = _
    rw [zero_add, h]
  rw [e]
  change mises steel.Hk (hooke steel (strain (shearing (1 / 2)) - virgin.plasticStrain)) virgin.plasticStrain ≤ steel.Y 0
  have h9 : mises steel.Hk (hooke steel (strain (shearing (1 / 2)) - virgin.plasticStrain)) virgin.plasticStrain = Real.sqrt (3 / 2) * Real.sqrt (1 / 2) := by
    unfold mises frob
    rw [C32.deviator_hooke steel_good]
    congr 2
    rw [virgin_strain, sub_zero, smul_zero, sub_zero]
    simp [J2.shear, steel, strain, shearing, deviator, Fin.sum_univ_three, Matrix.trace, Matrix.smul_apply]
    norm_num
  rw [h9, ← Real.sqrt_mul (by norm_num), show steel.Y 0 = 1 by norm_num [steel, linearHardening]]
  exact Real.sqrt_le_one.2 (by norm_num)

example (st : ℕ → J2.State) (h : ∀ p, Adm (st p)) (u : Ode.Vec 15) (t : ℝ) : exMemory.store (exMemory.store st u) u = exMemory.store st u ∧
    ∀ i, ∑ n, (exMemory.body st).B.S.residual (exMemory.L.B.nodal u) (fun _ _ => 0) n i = 0 :=
  ⟨(C90_repeat steel_good ex_j2 (1 / 10) (by norm_num) rfl rfl ex_meaning (C89.ex_nondegenerate fun _ => 1) (C89.ex_faces fun _ => 1) (fun _ h => absurd h List.not_mem_nil)
    (fun _ h => absurd h List.not_mem_nil) rfl st h u t).1,
    (C90_balance steel_good ex_j2 ex_meaning (C89.ex_nondegenerate fun _ => 1) rfl (C89.ex_unity fun _ => 1) C89.exPos (C89.ex_positions fun _ => 1) st h u).1⟩

/-- Sheared by four the material flows. -/
theorem ex_flow {σ : M 3} {st' : J2.State} {r : Option ScalarSolver.Result} (h : update steel virgin (shearing 4) = some (σ, st', r)) : 0 < st'.eqps := by
  obtain ⟨-, h1, h2⟩ := C32.C32_invariants steel_good virgin_adm h
  have h1 : 0 ≤ st'.eqps := h1
  refine lt_of_le_of_ne h1 fun h0 => ?_
  have h3 : frob (st'.plasticStrain - virgin.plasticStrain) = 0 := by
    have h4 : st'.eqps - virgin.eqps = 0 := by rw [← h0]; exact sub_zero _
    rw [h4] at h2
    exact (mul_eq_zero.1 h2.symm).resolve_left (Real.sqrt_pos.2 (by norm_num)).ne'
  have h5 : st'.plasticStrain = virgin.plasticStrain := by
    have h6 : ∑ i, ∑ j, (st'.plasticStrain - virgin.plasticStrain : M 3) i j ^ 2 = 0 :=
      (Real.sqrt_eq_zero (sum_nonneg fun _ _ => sum_nonneg fun _ _ => sq_nonneg _)).1 h3
    funext i j
    have h7 := (sum_eq_zero_iff_of_nonneg fun j _ => sq_nonneg _).1 ((sum_eq_zero_iff_of_nonneg fun i _ => sum_nonneg fun j _ => sq_nonneg _).1 h6 i (mem_univ _)) j (mem_univ _)
    exact sub_eq_zero.1 (pow_eq_zero_iff (two_ne_zero)|>.1 h7)
  have h8 := (C32.C32_linear steel_good (1 / 10) (by norm_num) rfl rfl virgin_adm h).1
  rw [C32.C32_hooke steel_good virgin_adm h, h5, ← h0] at h8
  have h9 : mises steel.Hk (hooke steel (strain (shearing 4) - virgin.plasticStrain)) virgin.plasticStrain = Real.sqrt (3 / 2) * Real.sqrt 32 := by
    unfold mises frob
    rw [C32.deviator_hooke steel_good]
    congr 2
    rw [virgin_strain, sub_zero, smul_zero, sub_zero]
    simp [J2.shear, steel, strain, shearing, deviator, Fin.sum_univ_three, Matrix.trace, Matrix.smul_apply]
    norm_num
  rw [h9, ← Real.sqrt_mul (by norm_num)] at h8
  have h10 : Real.sqrt (3 / 2 * 32) ≤ 2 := by
    have : steel.Y 0 = 1 := by norm_num [steel, linearHardening]
    rw [this] at h8
    have : tol * steel.sigmaY ≤ 1 := by norm_num [tol, steel]
    linarith
  have h11 := Real.sqrt_le_left (by norm_num : (0 : ℝ) ≤ 2) |>.1 h10
  norm_num at h11

/-- Sheared by four and back, in any number of further steps: the plastic strain at the points of the mesh has not gone. -/
example (γ : ℝ → ℝ) (h : γ 1 = 4) (dts : List ℝ) (p : ℕ) (hp : Point exMemory p) : 0 < ((exMemory.run (exSolve γ) exStart (1 :: dts)).mem p).eqps := by
  have h1 := C90_history steel_good ex_j2 (exSolve γ) dts (exMemory.step (exSolve γ) exStart 1) (fun p => (store_closed (closed steel_good ex_j2) (fun _ => virgin_adm) _ p).2) p
  obtain ⟨st', h2, h3⟩ := C90_uniform steel_good ex_j2 ex_meaning (C89.ex_nondegenerate fun _ => 1) (C89.ex_unity fun _ => 1) C89.exPos (C89.ex_positions fun _ => 1)
    (exSolve γ) (fun t => shearing (γ t)) (fun _ => 0) (exSolve_nodal γ) [1] exStart virgin virgin_adm fun _ _ => rfl
  refine lt_of_lt_of_le ?_ h1.2
  rw [show (exMemory.step (exSolve γ) exStart 1).mem p = st' from h3 p hp]
  obtain ⟨σ, st1, r, h4⟩ := C32.C32_defined steel_good virgin_adm (shearing 4)
  have h5 : history steel [shearing 4] virgin = some st' := by
    have e : [shearing 4] = (ends exStart.time [1]).map fun t => shearing (γ t) := by
      change _ = [shearing (γ (0 + 1))]
      rw [zero_add, h]
    rw [e]
    exact h2
  rw [history, h4] at h5
  cases h5
  exact ex_flow h4

end Serac.C90
