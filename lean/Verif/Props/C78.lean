import Verif.Model.SolidStatics
import Verif.Props.C77
import Mathlib.Algebra.Order.Chebyshev
/-!
# C78: linear elastostatics

For an elastic body under dead loads the assembled stiffness is one symmetric matrix, the same at every displacement and time (`C78_stiffness`).  If the supports exclude
motions without strain, there is one equilibrium for any loads and boundary values (`C78_unique`); it minimises the potential energy (`C78_minimum`), depends linearly on
loads and boundary values (`C78_superposition`) and satisfies reciprocity (`C78_reciprocity`).  A quasi-static step with exact linear solves finds it (`C78_step`,
`C78_newton`), so that the displacement after a run depends on the final time only (`C78_run`).  `C78_supported` reads off the mesh that the supports suffice, and
`C78_rigid` says what a body without supports does.
-/

noncomputable section
namespace Serac.C78
open Serac.Tensor Serac.Transform Serac.Kernels Serac.Solid Serac.Loads Serac.Piola Finset
open Serac.C71 (M Shapes)
open scoped Matrix

/-! ## Specification -/

section Spec
variable {d : Dim} (L : Loaded d) (s sF : Shapes) (C : ℕ → M d.n →ₗ[ℝ] M d.n)

/-- The assumptions on mesh, faces and loads of C71, C73 and C75, with an elastic material and dead loads. -/
structure Good : Prop where
  meaning : C71.Meaning L.B.S s
  nondegenerate : C71.Nondegenerate L.B.S s
  domains : C73.Domains L.B
  faces : C75.Meaning L.F sF d
  loads : C75.AllGood L sF
  dead : C75.Dead L
  elastic : C73.Elastic L.B C

/-- No forces on the free dofs, prescribed values on the fixed ones. -/
def Equilibrium (fixed : List (Fin L.B.N)) (g : Fin L.B.N → ℝ) (t : ℝ) (u : Ode.Vec L.B.N) : Prop :=
  (∀ k ∈ fixed, u k = g k) ∧ ∀ k, k ∉ fixed → L.residual t u 0 k = 0

/-- Every motion that keeps the fixed dofs costs energy. -/
def Supported (fixed : List (Fin L.B.N)) : Prop := ∀ w, (∀ k ∈ fixed, w k = 0) → w ≠ 0 → 0 < C73.strain L.B s C w w

/-- Elastic energy minus the work of the loads. -/
def potential (t : ℝ) (u : Ode.Vec L.B.N) : ℝ := 1 / 2 * C73.strain L.B s C u u - C75.force L s sF t u

end Spec

variable {d : Dim} {L : Loaded d} {s sF : Shapes} {C : ℕ → M d.n →ₗ[ℝ] M d.n}

/-! ## The stiffness -/

theorem inertia_zero (B : Body d) (v : Ode.Vec B.N) : C73.inertia B s 0 v = 0 := by
  have h := C73.inertia_lin (B := B) (s := s) 0 0 0 0 v
  simpa using h

theorem tested (h : Good L s sF C) (t : ℝ) (u v : Ode.Vec L.B.N) : ∑ k, L.residual t u 0 k * v k = C73.strain L.B s C u v - C75.force L s sF t v := by
  rw [C75.elastic_tested h.meaning h.nondegenerate h.domains h.faces h.loads h.dead h.elastic, inertia_zero]
  ring

theorem strain_symm (h : Good L s sF C) (u v : Ode.Vec L.B.N) : C73.strain L.B s C u v = C73.strain L.B s C v u := C73.strain_symm h.elastic u v

theorem strain_lin' (h : Good L s sF C) (x y : ℝ) (u v w : Ode.Vec L.B.N) :
    C73.strain L.B s C u (x • v + y • w) = x * C73.strain L.B s C u v + y * C73.strain L.B s C u w := by
  rw [strain_symm h, C73.strain_lin, strain_symm h v, strain_symm h w]

theorem strain_add (u v w : Ode.Vec L.B.N) : C73.strain L.B s C (u + v) w = C73.strain L.B s C u w + C73.strain L.B s C v w := by
  simpa using C73.strain_lin (s := s) (C := C) 1 1 u v w

theorem strain_sub (u v w : Ode.Vec L.B.N) : C73.strain L.B s C (u - v) w = C73.strain L.B s C u w - C73.strain L.B s C v w := by
  have := C73.strain_lin (s := s) (C := C) 1 (-1) u v w
  rw [one_smul, neg_one_smul, ← sub_eq_add_neg] at this
  rw [this]
  ring

theorem mulVec_apply {n : ℕ} (A : Elim.Mat n) (w : Ode.Vec n) (k : Fin n) : Elim.mulVec A w k = ∑ m, A k m * w m := rfl

/-- The derivative of the residual along `w`, tested. -/
theorem stiff_tested (h : Good L s sF C) {A : Moduli d} {u : Ode.Vec L.B.N} (hA : C77.Tangent L s A u) (old : Buffer ℝ) (t : ℝ) (w v : Ode.Vec L.B.N) :
    ∑ k, Elim.mulVec (L.stiffMatrix A old t u) w k * v k = C73.strain L.B s C w v := by
  obtain ⟨D, h1, h2⟩ := C77.C77_derivative h.meaning h.nondegenerate h.domains h.faces h.loads t hA 0 old
  have hl : HasDerivAt (fun x : ℝ => u + x • w) w 0 := by
    simpa using ((hasDerivAt_id (0 : ℝ)).smul_const w).const_add u
  have h2' : HasFDerivAt (fun w => L.residual t w 0) D (u + (0 : ℝ) • w) := by rwa [zero_smul, add_zero]
  have h3 : HasDerivAt (fun x : ℝ => L.residual t (u + x • w) 0) (D w) 0 := HasFDerivAt.comp_hasDerivAt (l := fun w => L.residual t w 0) (0 : ℝ) h2' hl
  have h4 : HasDerivAt (fun x : ℝ => ∑ k, L.residual t (u + x • w) 0 k * v k) (∑ k, D w k * v k) 0 :=
    HasDerivAt.fun_sum fun k _ => ((hasDerivAt_pi.1 h3) k).mul_const (v k)
  have h5 : (fun x : ℝ => ∑ k, L.residual t (u + x • w) 0 k * v k) = fun x => C73.strain L.B s C u v - C75.force L s sF t v + x * C73.strain L.B s C w v := by
    funext x
    rw [tested h]
    have := C73.strain_lin (s := s) (C := C) 1 x u w v
    rw [one_smul] at this
    rw [this]
    ring
  rw [h5] at h4
  have h6 : HasDerivAt (fun x : ℝ => C73.strain L.B s C u v - C75.force L s sF t v + x * C73.strain L.B s C w v) (1 * C73.strain L.B s C w v) 0 :=
    ((hasDerivAt_id (0 : ℝ)).mul_const _).const_add _
  have := h4.unique h6
  rw [one_mul] at this
  rw [← this, h1]

/-- An elastic material is its own tangent. -/
theorem C78_tangent (h : C73.Elastic L.B C) (u : Ode.Vec L.B.N) : C77.Tangent L s (fun p _ i m j n => C p (Matrix.single j n 1) i m) u := by
  intro ee _ Q _
  refine ⟨Filter.Eventually.of_forall fun G => by rw [h.flux]; rfl, fun i m => ?_⟩
  have e : ∀ G : Fin d.n → Fin d.n → ℝ, ∑ j, ∑ n, C (ee.2 * L.B.S.E.npts + Q) (Matrix.single j n 1) i m * G j n = C (ee.2 * L.B.S.E.npts + Q) (Matrix.of G) i m := by
    intro G
    conv_rhs => rw [Matrix.matrix_eq_sum_single (Matrix.of G)]
    rw [map_sum, Matrix.sum_apply]
    refine sum_congr rfl fun j _ => ?_
    rw [map_sum, Matrix.sum_apply]
    refine sum_congr rfl fun n _ => ?_
    rw [show Matrix.single j n (Matrix.of G j n) = (G j n) • Matrix.single j n (1 : ℝ) by rw [Matrix.smul_single, smul_eq_mul, mul_one]; rfl, map_smul, Matrix.smul_apply, smul_eq_mul,
      mul_comm]
  let D : (Fin d.n → Fin d.n → ℝ) →ₗ[ℝ] ℝ :=
    { toFun := fun G => C (ee.2 * L.B.S.E.npts + Q) (Matrix.of G) i m
      map_add' := fun G G' => by rw [← Matrix.of_add_of, map_add]; rfl
      map_smul' := fun c G => by rw [← Matrix.smul_of, map_smul]; rfl }
  refine ⟨LinearMap.toContinuousLinearMap D, fun G => (e G).symm, ?_⟩
  have := (LinearMap.toContinuousLinearMap D).hasFDerivAt (x := (C71.grad L.B.S s (L.B.nodal u) ee.1 Q : Fin d.n → Fin d.n → ℝ))
  refine this.congr_of_eventuallyEq (Filter.Eventually.of_forall fun G => ?_)
  beta_reduce
  rw [h.flux]
  rfl

/-- **C78, stiffness.**  Tested with two vectors it is the strain energy of C73; one symmetric matrix at all displacements and times, and not negative if the material and the
volumes are not. -/
theorem C78_stiffness (h : Good L s sF C) {A : Moduli d} {u : Ode.Vec L.B.N} (hA : C77.Tangent L s A u) (old : Buffer ℝ) (t : ℝ) :
    (∀ w v, ∑ k, ∑ m, v k * L.stiffMatrix A old t u k m * w m = C73.strain L.B s C w v) ∧
    (∀ k m, L.stiffMatrix A old t u k m = L.stiffMatrix A old t u m k) ∧
    (∀ {A' : Moduli d} {u' : Ode.Vec L.B.N}, C77.Tangent L s A' u' → ∀ old' t', L.stiffMatrix A' old' t' u' = L.stiffMatrix A old t u) ∧
    (C73.Volumes L.B s → (∀ p H, 0 ≤ ∑ i, ∑ j, C p H i j * H i j) → ∀ w : Ode.Vec L.B.N, 0 ≤ ∑ k, ∑ m, w k * L.stiffMatrix A old t u k m * w m) := by
  have key : ∀ {A' : Moduli d} {u' : Ode.Vec L.B.N}, C77.Tangent L s A' u' → ∀ old' t' w v, ∑ k, ∑ m, v k * L.stiffMatrix A' old' t' u' k m * w m = C73.strain L.B s C w v := by
    intro A' u' h' old' t' w v
    rw [← stiff_tested h h' old' t' w v]
    refine sum_congr rfl fun k _ => ?_
    rw [mulVec_apply, sum_mul]
    exact sum_congr rfl fun m _ => by ring
  have ent : ∀ {A' : Moduli d} {u' : Ode.Vec L.B.N}, C77.Tangent L s A' u' → ∀ old' t' k m, L.stiffMatrix A' old' t' u' k m = C73.strain L.B s C (C77.one L m) (C77.one L k) := by
    intro A' u' h' old' t' k m
    rw [← key h' old' t']
    simp [C77.one]
  refine ⟨key hA old t, fun k m => ?_, fun h' old' t' => ?_, fun hv hC w => ?_⟩
  · rw [ent hA, ent hA, strain_symm h]
  · funext k m
    rw [ent h', ent hA]
  · rw [key hA old t]
    exact C73.integral_nonneg hv fun ee _ Q _ => hC _ _

/-! ## Equilibrium -/

theorem residual_of_tested (h : Good L s sF C) {fixed : List (Fin L.B.N)} {t : ℝ} {u : Ode.Vec L.B.N} :
    (∀ k, k ∉ fixed → L.residual t u 0 k = 0) ↔ ∀ v, (∀ k ∈ fixed, v k = 0) → C73.strain L.B s C u v = C75.force L s sF t v := by
  constructor
  · intro hu v hv
    have e := tested h t u v
    rw [sum_eq_zero fun k _ => by
      by_cases hk : k ∈ fixed
      · rw [hv k hk, mul_zero]
      · rw [hu k hk, zero_mul]] at e
    linarith
  · intro hu k hk
    have e := tested h t u (C77.one L k)
    rw [hu (C77.one L k) fun m hm => by simp [C77.one, show m ≠ k from fun e => hk (e ▸ hm)], sub_self] at e
    simpa [C77.one] using e

/-- The eliminated matrix has no kernel. -/
theorem elim_injective (h : Good L s sF C) {fixed : List (Fin L.B.N)} (hs : Supported L s C fixed) {A : Moduli d} {u : Ode.Vec L.B.N} (hA : C77.Tangent L s A u) (old : Buffer ℝ)
    (t : ℝ) {x : Ode.Vec L.B.N} (hx : Elim.mulVec (Elim.elim (L.stiffMatrix A old t u) fixed) x = 0) : x = 0 := by
  have hf : ∀ k ∈ fixed, x k = 0 := C26.C26_exact_correction _ fixed x 0 (Submodule.zero_mem _) fun k _ => congrFun hx k
  by_contra hne
  have hp := hs x hf hne
  have e := stiff_tested h hA old t x x
  have e2 : ∑ k, Elim.mulVec (L.stiffMatrix A old t u) x k * x k = 0 := sum_eq_zero fun k _ => by
    by_cases hk : k ∈ fixed
    · rw [hf k hk, mul_zero]
    · have := congrFun hx k
      rw [C77.elim_free _ fixed x hf] at this
      simp only [if_neg hk] at this
      rw [this]
      simp
  linarith

/-- ... so that every system with it has a solution. -/
theorem elim_surjective (h : Good L s sF C) {fixed : List (Fin L.B.N)} (hs : Supported L s C fixed) {A : Moduli d} {u : Ode.Vec L.B.N} (hA : C77.Tangent L s A u) (old : Buffer ℝ)
    (t : ℝ) (b : Ode.Vec L.B.N) : ∃ x, Elim.mulVec (Elim.elim (L.stiffMatrix A old t u) fixed) x = b := by
  let T : Ode.Vec L.B.N →ₗ[ℝ] Ode.Vec L.B.N := Matrix.mulVecLin (Matrix.of (Elim.elim (L.stiffMatrix A old t u) fixed))
  have hT : ∀ x, T x = Elim.mulVec (Elim.elim (L.stiffMatrix A old t u) fixed) x := fun x => rfl
  have hi : Function.Injective T := by
    rw [← LinearMap.ker_eq_bot, LinearMap.ker_eq_bot']
    exact fun x hx => elim_injective h hs hA old t hx
  obtain ⟨x, hx⟩ := (LinearMap.injective_iff_surjective.1 hi) b
  exact ⟨x, hx⟩

/-- A solution of the eliminated system takes the residual away. -/
theorem corrected (h : Good L s sF C) {fixed : List (Fin L.B.N)} {A : Moduli d} {u : Ode.Vec L.B.N} (hA : C77.Tangent L s A u) (old : Buffer ℝ) (t t' : ℝ) {x u0 : Ode.Vec L.B.N}
    (hx : Elim.mulVec (Elim.elim (L.stiffMatrix A old t' u) fixed) x = fun k => if k ∈ fixed then 0 else L.residual t u0 0 k) :
    (∀ k ∈ fixed, x k = 0) ∧ Equilibrium L fixed u0 t (u0 - x) := by
  have hf : ∀ k ∈ fixed, x k = 0 := by
    intro k hk
    have e := congrFun hx k
    rw [if_pos hk, mulVec_apply, Finset.sum_eq_single k (fun j _ hj => by simp [Elim.elim, hk, hj.symm]) (by simp), C26.elim_self _ _ _ hk, one_mul] at e
    exact e
  refine ⟨hf, fun k hk => by simp [hf k hk], (residual_of_tested h).2 fun v hv => ?_⟩
  rw [strain_sub, ← stiff_tested h hA old t' x v]
  have e := tested h t u0 v
  have e2 : ∑ k, Elim.mulVec (L.stiffMatrix A old t' u) x k * v k = ∑ k, L.residual t u0 0 k * v k := by
    refine sum_congr rfl fun k _ => ?_
    by_cases hk : k ∈ fixed
    · rw [hv k hk]; simp
    · have := congrFun hx k
      rw [C77.elim_free _ fixed x hf] at this
      simp only [if_neg hk] at this
      rw [this]
  rw [e2, e]
  ring

/-- Two equilibria with the same boundary values are one. -/
theorem unique (h : Good L s sF C) {fixed : List (Fin L.B.N)} (hs : Supported L s C fixed) {g : Fin L.B.N → ℝ} {t : ℝ} {u u' : Ode.Vec L.B.N} (hu : Equilibrium L fixed g t u)
    (hu' : Equilibrium L fixed g t u') : u = u' := by
  by_contra hne
  have hz : ∀ k ∈ fixed, (u - u') k = 0 := fun k hk => by simp [hu.1 k hk, hu'.1 k hk]
  have := hs (u - u') hz (sub_ne_zero.2 hne)
  rw [strain_sub, (residual_of_tested h).1 hu.2 _ hz, (residual_of_tested h).1 hu'.2 _ hz, sub_self] at this
  exact lt_irrefl _ this

theorem Equilibrium.congr {fixed : List (Fin L.B.N)} {g g' : Fin L.B.N → ℝ} {t : ℝ} {u : Ode.Vec L.B.N} (hu : Equilibrium L fixed g t u) (hg : ∀ k ∈ fixed, g k = g' k) :
    Equilibrium L fixed g' t u := ⟨fun k hk => (hu.1 k hk).trans (hg k hk), hu.2⟩

/-- **C78, one equilibrium** for all loads and boundary values. -/
theorem C78_unique (h : Good L s sF C) {fixed : List (Fin L.B.N)} (hs : Supported L s C fixed) (g : Fin L.B.N → ℝ) (t : ℝ) : ∃! u, Equilibrium L fixed g t u := by
  obtain ⟨x, hx⟩ := elim_surjective h hs (C78_tangent h.elastic 0) (fun _ => ⟨fun _ _ => 0, fun _ _ _ => 0, fun _ _ _ => 0, fun _ _ _ _ => 0⟩) t
    (fun k => if k ∈ fixed then 0 else L.residual t g 0 k)
  have := (corrected h (C78_tangent h.elastic 0) _ t t hx).2
  exact ⟨_, this, fun u hu => unique h hs hu this⟩

/-- **C78, minimum.**  A displacement is the equilibrium exactly if no displacement with the same boundary values has less potential energy (for materials that store energy). -/
theorem C78_minimum (h : Good L s sF C) (hv : C73.Volumes L.B s) (hC : ∀ p H, 0 ≤ ∑ i, ∑ j, C p H i j * H i j) {fixed : List (Fin L.B.N)} {g : Fin L.B.N → ℝ} {t : ℝ}
    {u : Ode.Vec L.B.N} (hu : ∀ k ∈ fixed, u k = g k) :
    Equilibrium L fixed g t u ↔ ∀ v : Ode.Vec L.B.N, (∀ k ∈ fixed, v k = g k) → potential L s sF C t u ≤ potential L s sF C t v := by
  have hn : ∀ w, 0 ≤ C73.strain L.B s C w w := fun w => C73.integral_nonneg hv fun ee _ Q _ => hC _ _
  have exp : ∀ (x : ℝ) (w : Ode.Vec L.B.N), potential L s sF C t (u + x • w) = potential L s sF C t u + x * (C73.strain L.B s C u w - C75.force L s sF t w) +
      1 / 2 * x ^ 2 * C73.strain L.B s C w w := by
    intro x w
    unfold potential
    have e1 : ∀ z, C73.strain L.B s C (u + x • w) z = C73.strain L.B s C u z + x * C73.strain L.B s C w z := fun z => by
      have := C73.strain_lin (s := s) (C := C) 1 x u w z
      rwa [one_smul, one_mul] at this
    have e2 : C75.force L s sF t (u + x • w) = C75.force L s sF t u + x * C75.force L s sF t w := by
      have := C75.force_lin (L := L) (s := s) (sF := sF) t 1 x u w
      rwa [one_smul, one_mul] at this
    rw [e1, e2, strain_symm h u, strain_symm h w (u + x • w), e1, e1, strain_symm h w u]
    ring
  constructor
  · intro he v hvg
    have e := exp 1 (v - u)
    rw [one_smul, add_sub_cancel, (residual_of_tested h).1 he.2 (v - u) fun k hk => by simp [hu k hk, hvg k hk]] at e
    have := hn (v - u)
    rw [e]
    linarith
  · intro hm
    refine ⟨hu, (residual_of_tested h).2 fun w hw => ?_⟩
    set p := C73.strain L.B s C u w - C75.force L s sF t w with hp
    have hq := hn w
    have hineq : ∀ x : ℝ, 0 ≤ x * p + 1 / 2 * x ^ 2 * C73.strain L.B s C w w := by
      intro x
      have := hm (u + x • w) fun k hk => by simp [hu k hk, hw k hk]
      rw [exp] at this
      linarith
    have hp0 : p = 0 := by
      set q := C73.strain L.B s C w w
      have := hineq (-p / (1 + q))
      have hpos : 0 < 1 + q := by linarith
      have e : -p / (1 + q) * p + 1 / 2 * (-p / (1 + q)) ^ 2 * q = -(p ^ 2 * (1 + q / 2)) / (1 + q) ^ 2 := by
        field_simp
        ring
      rw [e, le_div_iff₀ (by positivity), zero_mul] at this
      have : p ^ 2 * (1 + q / 2) ≤ 0 := by linarith
      have h2 : p ^ 2 ≤ 0 := by nlinarith [sq_nonneg p]
      exact pow_eq_zero_iff (two_ne_zero) |>.1 (le_antisymm h2 (sq_nonneg p))
    linarith

/-- **C78, reciprocity** (Betti): under two systems of loads, with the supports at rest, the loads of the first do as much work on the displacement of the second as the other
way round; and the energy stored is half the work of the final loads (Clapeyron). -/
theorem C78_reciprocity {forces forces' : List (Force d)} {loads loads' : List (Load d)} (h : Good ⟨{ L.B with forces := forces }, L.F, loads⟩ s sF C)
    (h' : Good ⟨{ L.B with forces := forces' }, L.F, loads'⟩ s sF C) {fixed : List (Fin L.B.N)} {t t' : ℝ} {u u' : Ode.Vec L.B.N}
    (hu : Equilibrium ⟨{ L.B with forces := forces }, L.F, loads⟩ fixed 0 t u) (hu' : Equilibrium ⟨{ L.B with forces := forces' }, L.F, loads'⟩ fixed 0 t' u') :
    C75.force ⟨{ L.B with forces := forces }, L.F, loads⟩ s sF t u' = C75.force ⟨{ L.B with forces := forces' }, L.F, loads'⟩ s sF t' u ∧
    C73.strain L.B s C u u = C75.force ⟨{ L.B with forces := forces }, L.F, loads⟩ s sF t u := by
  have e1 := (residual_of_tested h).1 hu.2
  have e2 := (residual_of_tested h').1 hu'.2
  refine ⟨?_, e1 u hu.1⟩
  rw [← e1 u' hu'.1, ← e2 u hu.1]
  exact strain_symm h u u'

/-- **C78, superposition.**  The sum of two equilibria is the equilibrium under both systems of loads with the sum of the boundary values. -/
theorem C78_superposition {forces forces' : List (Force d)} {loads loads' : List (Load d)} (h : Good ⟨{ L.B with forces := forces }, L.F, loads⟩ s sF C)
    (h' : Good ⟨{ L.B with forces := forces' }, L.F, loads'⟩ s sF C) {fixed : List (Fin L.B.N)} {g g' : Fin L.B.N → ℝ} {t : ℝ} {u u' : Ode.Vec L.B.N}
    (hu : Equilibrium ⟨{ L.B with forces := forces }, L.F, loads⟩ fixed g t u) (hu' : Equilibrium ⟨{ L.B with forces := forces' }, L.F, loads'⟩ fixed g' t u') :
    Equilibrium ⟨{ L.B with forces := forces ++ forces' }, L.F, loads ++ loads'⟩ fixed (g + g') t (u + u') := by
  have hg : Good ⟨{ L.B with forces := forces ++ forces' }, L.F, loads ++ loads'⟩ s sF C :=
    ⟨h.meaning, h.nondegenerate, fun f hf => (List.mem_append.1 hf).elim (h.domains f) (h'.domains f), h.faces,
      fun l hl => (List.mem_append.1 hl).elim (h.loads l) (h'.loads l), fun l hl => (List.mem_append.1 hl).elim (h.dead l) (h'.dead l), ⟨h.elastic.flux, h.elastic.symm⟩⟩
  refine ⟨fun k hk => by rw [Pi.add_apply, Pi.add_apply, hu.1 k hk, hu'.1 k hk], (residual_of_tested hg).2 fun v hv => ?_⟩
  have e1 := (residual_of_tested h).1 hu.2 v hv
  have e2 := (residual_of_tested h').1 hu'.2 v hv
  have e3 : C75.force ⟨{ L.B with forces := forces ++ forces' }, L.F, loads ++ loads'⟩ s sF t v =
      C75.force ⟨{ L.B with forces := forces }, L.F, loads⟩ s sF t v + C75.force ⟨{ L.B with forces := forces' }, L.F, loads'⟩ s sF t v := by
    unfold C75.force C73.load C75.external
    rw [List.map_append, List.sum_append, List.map_append, List.sum_append]
    exact add_add_add_comm _ _ _ _
  rw [e3, ← e1, ← e2]
  exact strain_add (L := L) u u' v

/-! ## The nonlinear solver -/

section Newton
open Serac.Newton
variable {V : Type} [AddCommGroup V] [Module ℝ V]

theorem backtrack_stay (p : Problem V V) (x0 : V) (sgn : ℝ) (prev : Newton.Num) (rem : ℕ) (h : ℝ) (s : Iter V V) (hs : s.x = x0) : (backtrack p x0 0 sgn prev rem h s).1.x = x0 := by
  induction rem generalizing h s with
  | zero => exact hs
  | succ rem ih =>
    rw [backtrack]
    split_ifs
    · exact hs
    · exact ih _ _ (by rw [evalAt, smul_zero, add_zero])

theorem iterate_stay (p : Problem V V) (o : Options) (s : Iter V V) (hc : p.correction s.x s.r = 0) : (iterate p o s).x = s.x := by
  unfold iterate
  rw [hc]
  dsimp only
  have h1 : ∀ (y : ℝ) s', (evalAt p (s.x + y • (0 : V)) s').x = s.x := fun y s' => by rw [evalAt, smul_zero, add_zero]
  split_ifs
  · exact h1 _ _
  · exact backtrack_stay p s.x 1 _ _ _ _ (h1 _ _)
  · exact backtrack_stay p s.x (-1) _ _ _ _ (h1 _ _)

/-- The residual vector of an iterate is the residual at it. -/
def Current (p : Problem V V) (s : Iter V V) : Prop := ∃ q, (s.norm, s.r) = evaluateNorm p s.x q

theorem backtrack_current (p : Problem V V) (x0 c : V) (sgn : ℝ) (prev : Newton.Num) (rem : ℕ) (h : ℝ) (s : Iter V V) (hs : Current p s) :
    Current p (backtrack p x0 c sgn prev rem h s).1 := by
  induction rem generalizing h s with
  | zero => exact hs
  | succ rem ih =>
    rw [backtrack]
    split_ifs
    · exact hs
    · exact ih _ _ ⟨s.r, rfl⟩

theorem iterate_current (p : Problem V V) (o : Options) (s : Iter V V) : Current p (iterate p o s) := by
  unfold iterate
  dsimp only
  split_ifs
  · exact ⟨_, rfl⟩
  · exact backtrack_current p _ _ _ _ _ _ _ ⟨_, rfl⟩
  · exact backtrack_current p _ _ _ _ _ _ _ ⟨_, rfl⟩

/-- If the correction vanishes at `x`, the loop does not leave it. -/
theorem loop_stay (p : Problem V V) (o : Options) (goal : Newton.Num) (rep : Report) (x : V) (hx : ∀ q, p.correction x (evaluateNorm p x q).2 = 0) (it : ℕ) (s : Iter V V) (hs : s.x = x)
    (hc : Current p s) : (Newton.loop p o goal rep it s).1.x = x := by
  induction hk : o.maxIter - it generalizing it s with
  | zero =>
    rw [Newton.loop]
    split
    · exact hs
    · split_ifs with h1 h2
      · exact hs
      · exact hs
      · omega
  | succ k ih =>
    rw [Newton.loop]
    split
    · exact hs
    · split_ifs with h1 h2
      · exact hs
      · exact hs
      · obtain ⟨q, hq⟩ := hc
        refine ih (it + 1) _ ?_ (iterate_current p o s) (by omega)
        rw [iterate_stay p o s, hs]
        have hr : s.r = (evaluateNorm p s.x q).2 := congrArg Prod.snd hq
        rw [hs, hr, hs]
        exact hx q

/-- A full step that reduces the norm is taken. -/
theorem iterate_full (p : Problem V V) (o : Options) (s : Iter V V) (h : (evalAt p (s.x + ((-1 : ℝ) * 1) • p.correction s.x s.r) s).norm.lt s.norm) :
    iterate p o s = evalAt p (s.x + ((-1 : ℝ) * 1) • p.correction s.x s.r) s := by
  unfold iterate
  dsimp only
  cases ho : o.maxLs with
  | zero => simp [backtrack]
  | succ k =>
    have hb : backtrack p s.x (p.correction s.x s.r) (-1) s.norm (k + 1) 1 (evalAt p (s.x + ((-1 : ℝ) * 1) • p.correction s.x s.r) s) =
        (evalAt p (s.x + ((-1 : ℝ) * 1) • p.correction s.x s.r) s, 1, false) := by
      rw [backtrack, if_pos h]
    rw [hb]
    simp

end Newton

/-- The linear solver solves whatever can be solved. -/
def Exact {n : ℕ} (linear : Elim.Mat n → Elim.Vec n → Elim.Vec n) : Prop := ∀ J b, (∃ x, Elim.mulVec J x = b) → Elim.mulVec J (linear J b) = b

/-- The norm is a number that vanishes on the zero vector only. -/
def Length {n : ℕ} (norm : Elim.Vec n → Newton.Num) : Prop := ∀ r, ∃ x : ℝ, norm r = .fin x ∧ 0 ≤ x ∧ (x = 0 ↔ r = 0)

theorem zeroSub_apply {n : ℕ} (dofs : List (Fin n)) (r : Elim.Vec n) (i : Fin n) : Elim.zeroSub dofs r i = if i ∈ dofs then 0 else r i := C26.foldl_set dofs (fun _ => 0) r i

section Solve
variable {A : Moduli d} {old : Buffer ℝ} {o : StaticSolver L.B.N} {fixed : List (Fin L.B.N)}

theorem oper_eq (t : ℝ) (u r : Ode.Vec L.B.N) : Newton.evaluateNorm (L.staticProblem A old o fixed t 0) u r = (o.norm (L.staticResidual fixed t 0 u), L.staticResidual fixed t 0 u) := by
  have : Elim.zeroSub fixed (L.residual t u 0) = L.staticResidual fixed t 0 u := funext fun k => zeroSub_apply fixed _ k
  unfold Newton.evaluateNorm Loaded.staticProblem Elim.residualOp
  dsimp only
  rw [this]

theorem static_zero {t : ℝ} {u : Ode.Vec L.B.N} : L.staticResidual fixed t 0 u = 0 ↔ Equilibrium L fixed u t u := by
  constructor
  · intro h
    refine ⟨fun _ _ => rfl, fun k hk => ?_⟩
    have := congrFun h k
    unfold Loaded.staticResidual at this
    rwa [if_neg hk] at this
  · intro h
    funext k
    unfold Loaded.staticResidual
    split_ifs with hk
    · rfl
    · exact h.2 k hk

/-- **C78, Newton.**  With exact linear solves the solver returns the equilibrium with the boundary values of its start, from any start and with any options; unless it is told
not to iterate, or the residual at the start meets the tolerance already. -/
theorem C78_newton (h : Good L s sF C) (hs : Supported L s C fixed) (hA : ∀ u, C77.Tangent L s A u) (hlin : Exact o.linear) (hnorm : Length o.norm) (t : ℝ) (u0 r0 : Ode.Vec L.B.N)
    (rep : Newton.Report) :
    let u := (Newton.mult (L.staticProblem A old o fixed t 0) o.newton u0 r0 rep).1.x
    Equilibrium L fixed u0 t u ∨ (u = u0 ∧ (o.newton.maxIter = 0 ∨ (o.newton.minIter = 0 ∧
      ∃ x, o.norm (L.staticResidual fixed t 0 u0) = .fin x ∧ x ≤ max (o.newton.relTol * x) o.newton.absTol))) := by
  set p := L.staticProblem A old o fixed t 0 with hp
  have sol : ∀ u b, Elim.mulVec (Elim.elim (L.stiffMatrix A old t u) fixed) (p.correction u b) = b := fun u b =>
    hlin _ _ (elim_surjective h hs (hA u) old t b)
  have stay : ∀ u, Equilibrium L fixed u t u → ∀ q, p.correction u (Newton.evaluateNorm p u q).2 = 0 := by
    intro u hu q
    rw [oper_eq, static_zero.2 hu]
    exact elim_injective h hs (hA u) old t (sol u 0)
  obtain ⟨x, hx, hx0, hxz⟩ := hnorm (L.staticResidual fixed t 0 u0)
  by_cases hz : x = 0
  · left
    have he := static_zero.1 (hxz.1 hz)
    have : (Newton.mult p o.newton u0 r0 rep).1.x = u0 := loop_stay p o.newton _ _ u0 (stay u0 he) 0 _ rfl ⟨r0, rfl⟩
    rw [this]
    exact he
  · have hpos : 0 < x := lt_of_le_of_ne hx0 (Ne.symm hz)
    dsimp only
    unfold Newton.mult
    set s0 : Newton.Iter (Ode.Vec L.B.N) (Ode.Vec L.B.N) := Newton.evalAt p u0 ⟨u0, r0, .nan, []⟩ with hs0
    have hsx : s0.x = u0 := rfl
    have hsn : s0.norm = .fin x := by
      rw [← hx]
      exact congrArg Prod.fst (oper_eq (A := A) (old := old) (o := o) t u0 r0)
    have hsr : s0.r = L.staticResidual fixed t 0 u0 := congrArg Prod.snd (oper_eq (A := A) (old := old) (o := o) t u0 r0)
    dsimp only
    set goal := Newton.Num.max (Newton.Num.scale o.newton.relTol s0.norm) (.fin o.newton.absTol) with hgoal
    rw [Newton.loop, hsn]
    dsimp only
    split_ifs with h1 h2
    · right
      refine ⟨rfl, Or.inr ⟨Nat.le_zero.1 h1.2, x, hx, ?_⟩⟩
      have h1' := h1.1
      rw [hgoal, hsn] at h1'
      change (Newton.Num.fin x).le (Newton.Num.max (.fin (o.newton.relTol * x)) _) at h1'
      unfold Newton.Num.max at h1'
      split_ifs at h1'
      · exact le_max_of_le_right h1'
      · exact le_max_of_le_left h1'
    · right
      exact ⟨rfl, Or.inl (Nat.le_zero.1 h2)⟩
    · left
      set c := p.correction s0.x s0.r with hc
      have hcs : Elim.mulVec (Elim.elim (L.stiffMatrix A old t u0) fixed) c = fun k => if k ∈ fixed then 0 else L.residual t u0 0 k := by
        rw [hc, hsx, sol u0, hsr]
        rfl
      obtain ⟨-, heq⟩ := corrected h (hA u0) old t t hcs
      have hu1 : s0.x + ((-1 : ℝ) * 1) • c = u0 - c := by rw [hsx, mul_one, neg_one_smul, ← sub_eq_add_neg]
      have hself : Equilibrium L fixed (u0 - c) t (u0 - c) := ⟨fun _ _ => rfl, heq.2⟩
      have hnew : (Newton.evalAt p (u0 - c) s0).norm = .fin 0 := by
        obtain ⟨y, hy, _, hyz⟩ := hnorm (L.staticResidual fixed t 0 (u0 - c))
        have : (Newton.evalAt p (u0 - c) s0).norm = o.norm (L.staticResidual fixed t 0 (u0 - c)) := congrArg Prod.fst (oper_eq (A := A) (old := old) (o := o) t (u0 - c) s0.r)
        rw [this, hy, hyz.2 (static_zero.2 hself)]
      have hit : Newton.iterate p o.newton s0 = Newton.evalAt p (u0 - c) s0 := by
        rw [iterate_full p o.newton s0, ← hc, hu1]
        rw [← hc, hu1, hnew, hsn]
        exact hpos
      rw [hit, loop_stay p o.newton goal _ (u0 - c) (stay _ hself) 1 _ rfl ⟨s0.r, rfl⟩]
      exact heq

variable {b : Ode.BCs L.B.N} {g : ℝ → Fin L.B.N → ℝ}

theorem warm_equilibrium (h : Good L s sF C) (hs : Supported L s C b.allDofs) (hA : ∀ u, C77.Tangent L s A u) (hlin : Exact o.linear) (hw : o.warm = true) (hg : Ode.Prescribes b g)
    (hnd : b.allDofs.Nodup) (x : StaticState L.B.N) (dt : ℝ) : Equilibrium L b.allDofs (g (x.time + dt)) (x.time + dt) (L.warmDisplacement A old o b 0 dt x) := by
  obtain ⟨h1, -, h3⟩ := C26.C26_warm_start b.allDofs hnd (b.eval (x.time + dt)) x.u (fun i hi => by rw [Ode.eval_apply hg, if_neg hi]) o.warm (L.stiffMatrix A old x.time x.u)
    (L.residual (x.time + dt) x.u 0) o.linear (fun y i => congrFun (hlin _ _ (elim_surjective h hs (hA x.u) old x.time y)) i)
  set u' := L.warmDisplacement A old o b 0 dt x with hu'
  refine ⟨fun k hk => ?_, (residual_of_tested h).2 fun v hv => ?_⟩
  · rw [← if_pos (c := k ∈ b.allDofs) (t := g (x.time + dt) k) (e := (0 : ℝ)) hk, ← Ode.eval_apply hg]
    exact h1 k hk
  · have e1 := stiff_tested h (hA x.u) old x.time (u' - x.u) v
    have e2 := tested h (x.time + dt) x.u v
    have e3 : ∑ k, Elim.mulVec (L.stiffMatrix A old x.time x.u) (u' - x.u) k * v k = -∑ k, L.residual (x.time + dt) x.u 0 k * v k := by
      rw [← sum_neg_distrib]
      refine sum_congr rfl fun k _ => ?_
      by_cases hk : k ∈ b.allDofs
      · rw [hv k hk]; simp
      · rw [show Elim.mulVec (L.stiffMatrix A old x.time x.u) (u' - x.u) k = -L.residual (x.time + dt) x.u 0 k from h3 hw k hk, neg_mul]
    rw [strain_sub] at e1
    linarith

/-- **C78, a step with warm start** ends at the equilibrium of the new time and the new boundary values, from any displacement and whatever the options of the Newton solver; the
warm start alone has found it. -/
theorem C78_step (h : Good L s sF C) (hs : Supported L s C b.allDofs) (hA : ∀ u, C77.Tangent L s A u) (hlin : Exact o.linear) (hnorm : Length o.norm) (hw : o.warm = true)
    (hg : Ode.Prescribes b g) (hnd : b.allDofs.Nodup) (x : StaticState L.B.N) (dt : ℝ) :
    Equilibrium L b.allDofs (g (x.time + dt)) (x.time + dt) (L.staticStep A old o b 0 x dt).u ∧ (L.staticStep A old o b 0 x dt).u = L.warmDisplacement A old o b 0 dt x ∧
    (L.staticStep A old o b 0 x dt).time = x.time + dt := by
  have hwe := warm_equilibrium (old := old) h hs hA hlin hw hg hnd x dt
  have hn := C78_newton (old := old) h hs hA hlin hnorm (x.time + dt) (L.warmDisplacement A old o b 0 dt x) x.r x.rep
  have he : (L.staticStep A old o b 0 x dt).u = L.warmDisplacement A old o b 0 dt x := by
    rcases hn with hn | hn
    · exact unique h hs hn ⟨fun _ _ => rfl, hwe.2⟩
    · exact hn.1
  exact ⟨he ▸ hwe, he, rfl⟩

/-- **C78, with or without the warm start** the step ends there, if the Newton solver iterates at least once. -/
theorem C78_cold (h : Good L s sF C) (hs : Supported L s C b.allDofs) (hA : ∀ u, C77.Tangent L s A u) (hlin : Exact o.linear) (hnorm : Length o.norm)
    (hg : Ode.Prescribes b g) (hnd : b.allDofs.Nodup) (hmax : 0 < o.newton.maxIter) (hmin : 0 < o.newton.minIter ∨ (o.newton.relTol < 1 ∧ o.newton.absTol = 0)) (x : StaticState L.B.N)
    (dt : ℝ) : Equilibrium L b.allDofs (g (x.time + dt)) (x.time + dt) (L.staticStep A old o b 0 x dt).u := by
  obtain ⟨h1, -, -⟩ := C26.C26_warm_start b.allDofs hnd (b.eval (x.time + dt)) x.u (fun i hi => by rw [Ode.eval_apply hg, if_neg hi]) o.warm (L.stiffMatrix A old x.time x.u)
    (L.residual (x.time + dt) x.u 0) o.linear (fun y i => congrFun (hlin _ _ (elim_surjective h hs (hA x.u) old x.time y)) i)
  have h1' : ∀ k ∈ b.allDofs, L.warmDisplacement A old o b 0 dt x k = g (x.time + dt) k := by
    intro k hk
    rw [← if_pos (c := k ∈ b.allDofs) (t := g (x.time + dt) k) (e := (0 : ℝ)) hk, ← Ode.eval_apply hg]
    exact h1 k hk
  rcases C78_newton (old := old) h hs hA hlin hnorm (x.time + dt) (L.warmDisplacement A old o b 0 dt x) x.r x.rep with hn | ⟨hu, hn | ⟨hn, y, hy, hle⟩⟩
  · exact hn.congr h1'
  · omega
  · rcases hmin with hm | ⟨hr, ha⟩
    · omega
    · obtain ⟨z, hz, hz0, hzz⟩ := hnorm (L.staticResidual b.allDofs (x.time + dt) 0 (L.warmDisplacement A old o b 0 dt x))
      have hyz : z = y := by rw [hz] at hy; injection hy
      subst hyz
      rw [ha] at hle
      have : z = 0 := by
        rcases max_choice ((o.newton.relTol : ℝ) * z) ((0 : NNReal) : ℝ) with hm | hm
        · rw [hm] at hle
          have : (o.newton.relTol : ℝ) < 1 := hr
          by_contra hne
          have : 0 < z := lt_of_le_of_ne hz0 (Ne.symm hne)
          nlinarith
        · rw [hm] at hle
          exact le_antisymm hle hz0
      have he := static_zero.1 (hzz.1 this)
      have hu' : (L.staticStep A old o b 0 x dt).u = L.warmDisplacement A old o b 0 dt x := hu
      rw [hu']
      exact he.congr h1'

/-- **C78, runs.**  After any sequence of steps the displacement is the equilibrium at the final time; the initial state and the steps in between leave no trace. -/
theorem C78_run (h : Good L s sF C) (hs : Supported L s C b.allDofs) (hA : ∀ u, C77.Tangent L s A u) (hlin : Exact o.linear) (hnorm : Length o.norm) (hw : o.warm = true)
    (hg : Ode.Prescribes b g) (hnd : b.allDofs.Nodup) (x : StaticState L.B.N) (dts : List ℝ) (hdts : dts ≠ []) :
    Equilibrium L b.allDofs (g (x.time + dts.sum)) (x.time + dts.sum) (L.staticRun A old o b 0 x dts).u ∧ (L.staticRun A old o b 0 x dts).time = x.time + dts.sum ∧
    ∀ (y : StaticState L.B.N) (dts' : List ℝ), dts' ≠ [] → y.time + dts'.sum = x.time + dts.sum → (L.staticRun A old o b 0 y dts').u = (L.staticRun A old o b 0 x dts).u := by
  have time : ∀ (x : StaticState L.B.N) (dts : List ℝ), (L.staticRun A old o b 0 x dts).time = x.time + dts.sum := by
    intro x dts
    induction dts generalizing x with
    | nil => simp [Loaded.staticRun]
    | cons dt dts ih =>
      rw [Loaded.staticRun, List.foldl_cons]
      refine (ih _).trans ?_
      rw [show (L.staticStep A old o b 0 x dt).time = x.time + dt from rfl, List.sum_cons]
      ring
  have eq : ∀ (x : StaticState L.B.N) (dts : List ℝ), dts ≠ [] → Equilibrium L b.allDofs (g (x.time + dts.sum)) (x.time + dts.sum) (L.staticRun A old o b 0 x dts).u := by
    intro x dts hne
    obtain ⟨l, dt, rfl⟩ : ∃ l dt, dts = l ++ [dt] := ⟨dts.dropLast, dts.getLast hne, (List.dropLast_append_getLast hne).symm⟩
    have := (C78_step (old := old) h hs hA hlin hnorm hw hg hnd (L.staticRun A old o b 0 x l) dt).1
    rw [time] at this
    rw [List.sum_append, List.sum_singleton, ← add_assoc, Loaded.staticRun, List.foldl_append, List.foldl_cons, List.foldl_nil]
    exact this
  refine ⟨eq x dts hdts, time x dts, fun y dts' hne he => ?_⟩
  have := eq y dts' hne
  rw [he] at this
  exact unique h hs this (eq x dts hdts)

end Solve

/-! ## Supports -/

section Supports
variable {B : Body d}

/-- Energy of a linear isotropic material with positive moduli in its dimension vanishes on skew gradients only. -/
theorem isotropic_pos' {K G : ℝ} (hK : 0 < K + (2 / d.n - 2 / 3) * G) (hG : 0 < G) (H : M d.n) : 0 ≤ ∑ i, ∑ j, C73.isotropic d.n K G H i j * H i j ∧
    (∑ i, ∑ j, C73.isotropic d.n K G H i j * H i j = 0 → ∀ i j, H i j + H j i = 0) := by
  rw [C73.isotropic_dot]
  have e1 : ∑ i, ∑ j, (H i j + H j i) * H i j = 1 / 2 * ∑ i, ∑ j, (H i j + H j i) ^ 2 := by
    have : ∑ i, ∑ j, (H i j + H j i) * H i j = ∑ i, ∑ j, (H i j + H j i) * H j i := by
      rw [sum_comm]
      exact sum_congr rfl fun i _ => sum_congr rfl fun j _ => by ring
    have e : ∑ i, ∑ j, (H i j + H j i) ^ 2 = ∑ i, ∑ j, (H i j + H j i) * H i j + ∑ i, ∑ j, (H i j + H j i) * H j i := by
      rw [← sum_add_distrib]
      refine sum_congr rfl fun i _ => ?_
      rw [← sum_add_distrib]
      exact sum_congr rfl fun j _ => by ring
    rw [e, ← this]
    ring
  have e2 : 4 * ∑ i, (H i i) ^ 2 ≤ ∑ i, ∑ j, (H i j + H j i) ^ 2 := by
    rw [mul_sum]
    refine sum_le_sum fun i _ => ?_
    refine le_trans (le_of_eq ?_) (single_le_sum (f := fun j => (H i j + H j i) ^ 2) (fun j _ => sq_nonneg _) (mem_univ i))
    ring
  have hd : (0 : ℝ) < d.n := by cases d <;> norm_num [Dim.n]
  have e3 : H.trace ^ 2 ≤ d.n * ∑ i, (H i i) ^ 2 := by
    have := sq_sum_le_card_mul_sum_sq (s := univ) (f := fun i => H i i)
    rw [card_univ, Fintype.card_fin] at this
    exact this
  have e4 : 2 / d.n * H.trace ^ 2 ≤ 2 * ∑ i, (H i i) ^ 2 := by
    rw [div_mul_eq_mul_div, div_le_iff₀ hd]
    linarith
  rw [e1]
  set S := ∑ i, ∑ j, (H i j + H j i) ^ 2 with hS
  have hdev : 0 ≤ 1 / 2 * S - 2 / d.n * H.trace ^ 2 := by linarith
  have e : (K - 2 / 3 * G) * H.trace * H.trace + G * (1 / 2 * S) = (K + (2 / d.n - 2 / 3) * G) * H.trace ^ 2 + G * (1 / 2 * S - 2 / d.n * H.trace ^ 2) := by ring
  rw [e]
  refine ⟨add_nonneg (mul_nonneg hK.le (sq_nonneg _)) (mul_nonneg hG.le hdev), fun h0 => ?_⟩
  have t0 : H.trace ^ 2 = 0 := by
    have h1 := mul_nonneg hK.le (sq_nonneg H.trace)
    have h2 := mul_nonneg hG.le hdev
    have : (K + (2 / d.n - 2 / 3) * G) * H.trace ^ 2 = 0 := by linarith
    exact (mul_eq_zero.1 this).resolve_left hK.ne'
  rw [t0, mul_zero, mul_zero, zero_add, sub_zero] at h0
  have hS0 : S = 0 := by
    rcases mul_eq_zero.1 h0 with h | h
    · exact absurd h hG.ne'
    · linarith
  intro i j
  have h1 := (sum_eq_zero_iff_of_nonneg fun i _ => sum_nonneg fun j _ => sq_nonneg (H i j + H j i)).1 hS0 i (mem_univ i)
  have h2 := (sum_eq_zero_iff_of_nonneg fun j _ => sq_nonneg (H i j + H j i)).1 h1 j (mem_univ j)
  exact pow_eq_zero_iff (two_ne_zero) |>.1 h2

theorem isotropic_pos {K G : ℝ} (hK : 0 < K) (hG : 0 < G) (H : M d.n) : 0 ≤ ∑ i, ∑ j, C73.isotropic d.n K G H i j * H i j ∧
    (∑ i, ∑ j, C73.isotropic d.n K G H i j * H i j = 0 → ∀ i j, H i j + H j i = 0) := by
  refine isotropic_pos' (add_pos_of_pos_of_nonneg hK (mul_nonneg ?_ hG.le)) hG H
  cases d <;> norm_num [Dim.n]

/-- All components of the node are fixed, or all other nodes of one of its elements are held.  (For triangles and tetrahedra: held from one face to the opposite vertex.) -/
inductive Held (B : Body d) (fixed : List (Fin B.N)) : Fin B.S.nn → Prop
  | fixed (n : Fin B.S.nn) (h : ∀ i, B.num (n, i) ∈ fixed) : Held B fixed n
  | element (e a : ℕ) (he : e ∈ B.S.elements) (ha : a < B.S.E.ndof) (h : ∀ c < B.S.E.ndof, B.S.conn e c ≠ B.S.conn e a → Held B fixed (B.S.conn e c)) : Held B fixed (B.S.conn e a)

/-- The nodes of an element are different, and no shape function is constant. -/
structure Proper (B : Body d) (s : Shapes) : Prop where
  nodes : ∀ e ∈ B.S.elements, ∀ a < B.S.E.ndof, ∀ c < B.S.E.ndof, B.S.conn e a = B.S.conn e c → a = c
  slope : ∀ a < B.S.E.ndof, ∃ Q < B.S.E.npts, ∃ k : Fin d.n, s.dphi Q a k ≠ 0
  volume : ∀ e ∈ B.S.elements, ∀ Q < B.S.E.npts, 0 < s.wt Q * (C71.jac B.S s e Q).det

/-- A sum of numbers that are not negative, with positive weights. -/
theorem integral_zero (hv : ∀ e ∈ B.S.elements, ∀ Q < B.S.E.npts, 0 < s.wt Q * (C71.jac B.S s e Q).det) {f : ℕ × ℕ → ℕ → ℝ} (hf : ∀ ee ∈ B.S.elements.zipIdx, ∀ Q < B.S.E.npts, 0 ≤ f ee Q)
    (h0 : C73.integral B s B.S.elements f = 0) {ee : ℕ × ℕ} (hee : ee ∈ B.S.elements.zipIdx) {Q : ℕ} (hQ : Q < B.S.E.npts) : f ee Q = 0 := by
  have hn : ∀ ee ∈ B.S.elements.zipIdx, ∀ Q ∈ range B.S.E.npts, 0 ≤ s.wt Q * ((C71.jac B.S s ee.1 Q).det * f ee Q) := by
    intro ee hee Q hQ
    rw [← mul_assoc]
    exact mul_nonneg (hv _ (C71.mem_zipIdx_fst hee) Q (mem_range.1 hQ)).le (hf _ hee _ (mem_range.1 hQ))
  have h1 := List.all_zero_of_le_zero_le_of_sum_eq_zero (fun x hx => by
    obtain ⟨ee, hee, rfl⟩ := List.mem_map.1 hx
    exact sum_nonneg (hn ee hee)) h0 (List.mem_map_of_mem hee)
  have h2 := (sum_eq_zero_iff_of_nonneg (hn ee hee)).1 h1 Q (mem_range.2 hQ)
  rw [← mul_assoc] at h2
  exact (mul_eq_zero.1 h2).resolve_left (hv _ (C71.mem_zipIdx_fst hee) Q hQ).ne'

/-- **C78, supports of bodies with varying moduli.**  If all nodes are held and the energy at the points vanishes on skew gradients only, every motion that keeps the fixed dofs
costs energy. -/
theorem C78_supported_varying {fixed : List (Fin L.B.N)} (hp : Proper L.B s) (hh : ∀ n, Held L.B fixed n)
    (hC : ∀ ee ∈ L.B.S.elements.zipIdx, ∀ Q < L.B.S.E.npts, ∀ H : M d.n, 0 ≤ ∑ i, ∑ j, C (ee.2 * L.B.S.E.npts + Q) H i j * H i j ∧
      (∑ i, ∑ j, C (ee.2 * L.B.S.E.npts + Q) H i j * H i j = 0 → ∀ i j, H i j + H j i = 0)) : Supported L s C fixed := by
  intro w hw hne
  have hnn : 0 ≤ C73.strain L.B s C w w :=
    C73.integral_nonneg (fun e he Q hQ => (hp.volume e he Q hQ).le) fun ee hee Q hQ => (hC ee hee Q hQ _).1
  refine lt_of_le_of_ne hnn fun h0 => hne ?_
  -- gradients are skew
  have hskew : ∀ e ∈ L.B.S.elements, ∀ Q < L.B.S.E.npts, ∀ i j, C73.grd L.B s w e Q i j + C73.grd L.B s w e Q j i = 0 := by
    intro e he Q hQ
    obtain ⟨k, hk, hke⟩ := List.getElem_of_mem he
    have hee : (e, k) ∈ L.B.S.elements.zipIdx := by
      rw [List.mem_zipIdx_iff_getElem?]
      simp [hk, hke]
    exact (hC (e, k) hee Q hQ (C73.grd L.B s w e Q)).2 (integral_zero hp.volume
      (f := fun ee Q => ∑ i, ∑ j, C (ee.2 * L.B.S.E.npts + Q) (C73.grd L.B s w ee.1 Q) i j * C73.grd L.B s w ee.1 Q i j) (fun ee hee Q hQ => (hC ee hee Q hQ _).1) h0.symm
      hee hQ)
  -- nodes one after the other
  have hnode : ∀ n, Held L.B fixed n → ∀ i, L.B.nodal w n i = 0 := by
    intro n hn
    induction hn with
    | fixed n h => exact fun i => hw _ (h i)
    | element e a he ha h ih =>
      obtain ⟨Q, hQ, k, hk⟩ := hp.slope a ha
      have hpar : ∀ i k, C71.parGrad L.B.S s (L.B.nodal w) e Q i k = L.B.nodal w (L.B.S.conn e a) i * s.dphi Q a k := by
        intro i k
        unfold C71.parGrad
        refine Finset.sum_eq_single a (fun c hc hca => ?_) fun h => absurd (mem_range.2 ha) h
        rw [ih c (mem_range.1 hc) (fun hh => hca (hp.nodes e he c (mem_range.1 hc) a ha hh)) i, zero_mul]
      let q : Fin d.n → ℝ := fun j => ∑ k : Fin d.n, s.dphi Q a k * (C71.jac L.B.S s e Q)⁻¹ k j
      have hgrd : ∀ i j, C73.grd L.B s w e Q i j = L.B.nodal w (L.B.S.conn e a) i * q j := by
        intro i j
        unfold C73.grd C71.grad
        rw [Matrix.mul_apply, mul_sum]
        exact sum_congr rfl fun k _ => by rw [hpar, mul_assoc]
      have hdet : (C71.jac L.B.S s e Q).det ≠ 0 := fun h0 => by
        have := hp.volume e he Q hQ
        rw [h0, mul_zero] at this
        exact lt_irrefl _ this
      obtain ⟨j, hj⟩ : ∃ j, q j ≠ 0 := by
        by_contra hall
        push Not at hall
        apply hk
        have : Matrix.vecMul (fun k : Fin d.n => s.dphi Q a k) (C71.jac L.B.S s e Q)⁻¹ = 0 := funext fun j => hall j
        have h2 := congrArg (fun v => Matrix.vecMul v (C71.jac L.B.S s e Q)) this
        beta_reduce at h2
        rw [Matrix.vecMul_vecMul, Matrix.nonsing_inv_mul _ (isUnit_iff_ne_zero.2 hdet), Matrix.vecMul_one, Matrix.zero_vecMul] at h2
        exact congrFun h2 k
      have hz : L.B.nodal w (L.B.S.conn e a) j = 0 := by
        have := hskew e he Q hQ j j
        rw [hgrd] at this
        have : L.B.nodal w (L.B.S.conn e a) j * q j = 0 := by linarith
        exact (mul_eq_zero.1 this).resolve_right hj
      intro i
      have := hskew e he Q hQ i j
      rw [hgrd, hgrd, hz, zero_mul, add_zero] at this
      exact (mul_eq_zero.1 this).resolve_right hj
  funext k
  have := hnode (L.B.num.symm k).1 (hh _) (L.B.num.symm k).2
  unfold Body.nodal at this
  simpa using this

/-- **C78, supports.**  If all nodes of a linear isotropic body are held, every motion that keeps the fixed dofs costs energy. -/
theorem C78_supported {K G : ℝ} (hK : 0 < K) (hG : 0 < G) {fixed : List (Fin L.B.N)} (hp : Proper L.B s) (hh : ∀ n, Held L.B fixed n) :
    Supported L s (fun _ => C73.isotropic d.n K G) fixed :=
  C78_supported_varying hp hh fun _ _ _ _ => isotropic_pos hK hG

/-- A small rigid motion of the nodes at `X`. -/
def rigid (B : Body d) (X : B.S.Nodal) (c : Fin d.n → ℝ) (W : M d.n) : Ode.Vec B.N := B.vector fun n i => c i + ∑ j, W i j * X n j

/-- **C78, rigid motions.**  A linear isotropic body resists none of them: the stiffness maps them to zero, and without supports there is equilibrium only under loads that do no
work on them. -/
theorem C78_rigid {K G : ℝ} (h : Good L s sF fun _ => C73.isotropic d.n K G) (hu : C71.Unity L.B.S s) {X : L.B.S.Nodal} (hX : C71.Positions L.B.S s X) (c : Fin d.n → ℝ)
    {W : M d.n} (hW : ∀ i j, W i j + W j i = 0) {A : Moduli d} {u : Ode.Vec L.B.N} (hA : C77.Tangent L s A u) (old : Buffer ℝ) (t : ℝ) :
    Elim.mulVec (L.stiffMatrix A old t u) (rigid L.B X c W) = 0 ∧
    ∀ g t' u', Equilibrium L [] g t' u' → C75.force L s sF t' (rigid L.B X c W) = 0 := by
  have hgrd : ∀ e ∈ L.B.S.elements, ∀ Q < L.B.S.E.npts, ∀ i j, C73.grd L.B s (rigid L.B X c W) e Q i j = W i j := by
    intro e he Q hQ i j
    have hpar : C71.parGrad L.B.S s (L.B.nodal (rigid L.B X c W)) e Q = W * C71.jac L.B.S s e Q := by
      rw [← hX e he Q hQ]
      ext i k
      rw [Matrix.mul_apply]
      have : ∀ n i, L.B.nodal (rigid L.B X c W) n i = c i + ∑ j, W i j * X n j := fun n i => by simp [Body.nodal, rigid, Body.vector]
      unfold C71.parGrad
      simp only [this, add_mul, sum_add_distrib, mul_sum]
      rw [← mul_sum, (hu Q hQ).2 k, mul_zero, zero_add, sum_comm]
      refine sum_congr rfl fun a _ => ?_
      rw [sum_mul]
      exact sum_congr rfl fun j _ => mul_assoc _ _ _
    unfold C73.grd C71.grad
    rw [hpar, Matrix.mul_assoc, Matrix.mul_nonsing_inv _ (isUnit_iff_ne_zero.2 (h.nondegenerate e he Q hQ)), Matrix.mul_one]
  have hstrain : ∀ v, C73.strain L.B s (fun _ => C73.isotropic d.n K G) (rigid L.B X c W) v = 0 := by
    intro v
    rw [strain_symm h]
    unfold C73.strain
    rw [C73.integral_congr (g := fun _ _ => 0 * 0 + 0 * 0)]
    · rw [C73.integral_lin]; simp
    · intro ee hee Q hQ
      have hW' : C73.grd L.B s (rigid L.B X c W) ee.1 Q = W := by
        funext i j
        exact hgrd _ (C71.mem_zipIdx_fst hee) Q hQ i j
      refine (h.elastic.symm (ee.2 * L.B.S.E.npts + Q) (C73.grd L.B s v ee.1 Q) (C73.grd L.B s (rigid L.B X c W) ee.1 Q)).trans ?_
      refine (C73.isotropic_dot d.n K G (C73.grd L.B s (rigid L.B X c W) ee.1 Q) (C73.grd L.B s v ee.1 Q)).trans ?_
      rw [hW']
      have ht : W.trace = 0 := by
        unfold Matrix.trace
        exact sum_eq_zero fun i _ => by have := hW i i; rw [Matrix.diag_apply]; linarith
      rw [ht, sum_eq_zero fun i _ => sum_eq_zero fun j _ => by rw [hW i j, zero_mul]]
      ring
  constructor
  · funext k
    have := stiff_tested h hA old t (rigid L.B X c W) (C77.one L k)
    rw [hstrain] at this
    simpa [C77.one] using this
  · intro g t' u' he
    rw [← (residual_of_tested h).1 he.2 (rigid L.B X c W) (by simp), strain_symm h, hstrain]

end Supports

/-! ## Example: the square of C73, clamped at two corners, under gravity, a traction and a pressure -/

section Example

theorem ex_good (forces : List (Force .two)) (loads : List (Load .two)) (hf : ∀ f ∈ forces, f = C73.exGravity ∨ f = C73.exPush)
    (hl : ∀ l ∈ loads, l = C75.exTraction ∨ l = C75.exHold ∨ l = C75.exPressure) : Good (C75.exLoaded forces loads) C72.exShapes C75.exSF fun _ => C73.isotropic 2 2 1 :=
  ⟨C73.ex_meaning forces, C73.ex_nondegenerate forces, C73.ex_domains forces hf, C75.ex_faces, C75.ex_loads_good forces loads hl, C75.ex_dead forces loads, (C73.ex_elastic forces).1⟩

theorem ex_proper (forces : List (Force .two)) : Proper (C73.exBody forces) C72.exShapes := by
  refine ⟨fun e he a ha c hc h => ?_, fun a ha => ?_, fun e he Q hQ => ?_⟩
  · have he : e = 0 ∨ e = 1 ∨ e = 2 ∨ e = 3 := by simpa [C73.exBody, C73.exMesh] using he
    have ha : a < 3 := ha
    have hc : c < 3 := hc
    change C71.exConn e a = C71.exConn e c at h
    rcases he with rfl | rfl | rfl | rfl <;> interval_cases a <;> interval_cases c <;> first | rfl | exact absurd h (by decide)
  · have ha : a < 3 := ha
    refine ⟨0, by change 0 < 3; norm_num, if a = 2 then (1 : Fin 2) else (0 : Fin 2), ?_⟩
    interval_cases a <;> simp [C72.exShapes, C72.tri3]
  · have he : e = 0 ∨ e = 1 ∨ e = 2 ∨ e = 3 := by simpa [C73.exBody, C73.exMesh] using he
    exact mul_pos (by simp [C72.exShapes, C72.tri3]) (C72.ex_det [] he hQ)

theorem ex_held (forces : List (Force .two)) (n : Fin 5) : Held (C73.exBody forces) C73.exClamp.allDofs n := by
  have h0 : Held (C73.exBody forces) C73.exClamp.allDofs (0 : Fin 5) := .fixed _ fun i => by revert i; change ∀ i : Fin 2, (finProdFinEquiv ((0 : Fin 5), i) : Fin 10) ∈ ([0, 1, 2, 3] : List (Fin 10)); decide
  have h1 : Held (C73.exBody forces) C73.exClamp.allDofs (1 : Fin 5) := .fixed _ fun i => by revert i; change ∀ i : Fin 2, (finProdFinEquiv ((1 : Fin 5), i) : Fin 10) ∈ ([0, 1, 2, 3] : List (Fin 10)); decide
  have step : ∀ e < 4, ∀ a < 3, (∀ c < 3, c ≠ a → Held (C73.exBody forces) C73.exClamp.allDofs (C71.exConn e c)) → Held (C73.exBody forces) C73.exClamp.allDofs (C71.exConn e a) := by
    intro e he a ha h
    refine Held.element (B := C73.exBody forces) e a ?_ ha fun c hc hne => h c hc fun hca => hne (by rw [hca])
    change e ∈ [0, 1, 2, 3]
    interval_cases e <;> simp
  have h4 : Held (C73.exBody forces) C73.exClamp.allDofs (4 : Fin 5) := step 0 (by norm_num) 2 (by norm_num) fun c hc hne => by
    have : c = 0 ∨ c = 1 := by omega
    rcases this with rfl | rfl
    · exact h0
    · exact h1
  have h2 : Held (C73.exBody forces) C73.exClamp.allDofs (2 : Fin 5) := step 1 (by norm_num) 1 (by norm_num) fun c hc hne => by
    have : c = 0 ∨ c = 2 := by omega
    rcases this with rfl | rfl
    · exact h1
    · exact h4
  have h3 : Held (C73.exBody forces) C73.exClamp.allDofs (3 : Fin 5) := step 2 (by norm_num) 1 (by norm_num) fun c hc hne => by
    have : c = 0 ∨ c = 2 := by omega
    rcases this with rfl | rfl
    · exact h2
    · exact h4
  fin_cases n
  exacts [h0, h1, h2, h3, h4]

theorem ex_supported (forces : List (Force .two)) (loads : List (Load .two)) : Supported (C75.exLoaded forces loads) C72.exShapes (fun _ => C73.isotropic 2 2 1) C73.exClamp.allDofs :=
  C78_supported (L := C75.exLoaded forces loads) (by norm_num) (by norm_num) (ex_proper forces) (ex_held forces)

/-- The equilibrium. -/
example (g : Fin 10 → ℝ) (t : ℝ) : ∃! u, Equilibrium (C75.exLoaded [C73.exGravity] [C75.exTraction, C75.exPressure]) C73.exClamp.allDofs g t u :=
  C78_unique (ex_good _ _ (by simp) (by simp)) (ex_supported _ _) g t

/-- A direct solver and the sum of absolute values as norm. -/
def exSolver (warm : Bool) (o : Newton.Options) : StaticSolver 10 where
  warm := warm
  linear J b := by classical exact if h : ∃ x, Elim.mulVec J x = b then h.choose else 0
  norm r := .fin (∑ i, |r i|)
  newton := o

theorem ex_exact (warm : Bool) (o : Newton.Options) : Exact (exSolver warm o).linear := by
  intro J b h
  unfold exSolver
  dsimp only
  rw [dif_pos h]
  exact h.choose_spec

theorem ex_length (warm : Bool) (o : Newton.Options) : Length (exSolver warm o).norm := by
  intro r
  refine ⟨∑ i, |r i|, rfl, sum_nonneg fun i _ => abs_nonneg _, ?_⟩
  rw [sum_eq_zero_iff_of_nonneg fun i _ => abs_nonneg _]
  exact ⟨fun h => funext fun i => abs_eq_zero.1 (h i (mem_univ i)), fun h i _ => by rw [h]; simp⟩

/-- Runs end at the equilibrium, with the traction of the final time. -/
example (o : Newton.Options) (old : Buffer ℝ) (x : StaticState 10) (dts : List ℝ) (h : dts ≠ []) :
    Equilibrium (C75.exLoaded [C73.exGravity] [C75.exTraction, C75.exPressure]) C73.exClamp.allDofs (fun _ => 0) (x.time + dts.sum)
      ((C75.exLoaded [C73.exGravity] [C75.exTraction, C75.exPressure]).staticRun (fun p _ i m j n => C73.isotropic 2 2 1 (Matrix.single j n 1) i m) old (exSolver true o) C73.exClamp 0 x dts).u :=
  (C78_run (L := C75.exLoaded [C73.exGravity] [C75.exTraction, C75.exPressure]) (b := C73.exClamp) (ex_good _ _ (by simp) (by simp)) (ex_supported _ _)
    (C78_tangent (L := C75.exLoaded [C73.exGravity] [C75.exTraction, C75.exPressure]) (C73.ex_elastic _).1) (ex_exact true o) (ex_length true o) rfl C73.ex_clamp (by decide) x dts h).1

end Example

end Serac.C78
