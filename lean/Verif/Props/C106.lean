import Verif.Model.UserAssemble
import Verif.Props.C53
import Verif.Props.C61
import Verif.Props.C105
import Mathlib.Data.List.GetD
import Mathlib.Tactic.FinCases
/-!
# C106: the assembled matrix is the Jacobian of the residual

Spec.  A mesh with restrictions as in C53, integrals with user-written functions as in C105.  `evaluate` with derivatives by argument `w`, then `assemble`: both succeed, and the
sparse matrix times any direction is the derivative of the residual vector, row by row.
-/

namespace Serac.C106
open Serac.Kernels Serac.UserFn Serac.UserAsm Serac.Assemble Serac.C08 Finset
open Serac.C105 (Written Regular written_elements regular_at run_derivative)

variable {Tm Q : Type}

/-! ### Spec -/

/-- The integral's kernels fit the mesh: same numbers of components and nodes as the restrictions of its arguments and of the test
space, and no element beyond theirs (the kernels would run past the end of the block). -/
def Fits (test : Space) (trial : ℕ → Space) (I : UserIntegral Tm Q) : Prop :=
  ∀ g k, I.kernels g = some k → Written k ∧ ∃ rs, test.get I.boundary g = some rs ∧ k.c = rs.components ∧ k.test.ndof = rs.nodesPerElem ∧
    (∀ e ∈ k.elements, e < rs.numElements) ∧ ∀ a : Fin I.active.length, ∃ rt, (trial (I.active.getD a.1 0)).get I.boundary g = some rt ∧ k.m a = rt.components ∧ (k.trial a).ndof = rt.nodesPerElem ∧
      rt.numElements = rs.numElements

/-- What gathering gives. -/
noncomputable def gathered (b : BlockRestriction) (x : Vec ℝ) : ℕ → ℝ := (b.gather x fun _ => 0).getD fun _ => 0

/-- At the values gathered from `xs` the user's functions are differentiable and the Jacobians invertible. -/
def RegularAt (trial : ℕ → Space) (t : Tm) (q : Q) (xs : ℕ → Vec ℝ) (I : UserIntegral Tm Q) : Prop :=
  ∀ g k, I.kernels g = some k → Regular t q (I.view trial (I.active.map fun i => gathered ((trial i).get I.boundary) (xs i)) g) k

/-- `x + s dx`. -/
def shift (x dx : Vec ℝ) (s : ℝ) : Vec ℝ := ⟨x.size, fun k => x.val k + s * dx.val k⟩

/-- Element values of geometry `g`: those of the vectors at the elements' degrees of freedom. -/
def Sees (trial : ℕ → Space) (xs : ℕ → Vec ℝ) (I : UserIntegral Tm Q) (g : ℕ) (Us : Fin I.active.length → ℕ → ℝ) : Prop :=
  ∀ a : Fin I.active.length, ∀ rt, (trial I.active[a]).get I.boundary g = some rt → ∀ e < rt.numElements, ∀ c < rt.components, ∀ j < rt.nodesPerElem,
    Us a (C07.epos rt e c j) = (xs I.active[a]).val (rt.vdof e j c)

/-- What the integral's kernel of geometry `g` computes at a position of its block. -/
noncomputable def entry (t : Tm) (q : Q) (I : UserIntegral Tm Q) (g : ℕ) (Us : Fin I.active.length → ℕ → ℝ) (p : ℕ) : ℝ :=
  match I.kernels g with
  | none => 0
  | some k => k.run none t q Us (fun _ => 0) p

/-! ### Gathering is linear -/

theorem gather_eq (b : BlockRestriction) (n : ℕ) (hb : WF b n) (x : Vec ℝ) (hx : x.size = n) : b.gather x (fun _ => 0) = some (gathered b x) := by
  obtain ⟨G, h, -⟩ := C08_gather b n hb x hx fun _ => 0
  simp [gathered, h]

theorem gathered_shift (b : BlockRestriction) (n : ℕ) (hb : WF b n) (x dx : Vec ℝ) (hx : x.size = n) (hdx : dx.size = n) (s : ℝ) :
    gathered b (shift x dx s) = fun p => gathered b x p + s * gathered b dx p := by
  have key : ∀ y : Vec ℝ, y.size = n →
      (∀ g < numGeometries, ∀ r, b g = some r → ∀ i < r.numElements, ∀ c < r.components, ∀ j < r.nodesPerElem,
        gathered b y (start b g + C07.epos r i c j) = y.val (r.vdof i j c)) ∧ ∀ k, total b ≤ k → gathered b y k = 0 := by
    intro y hy
    obtain ⟨G, h, h1, h2⟩ := C08_gather b n hb y hy fun _ => 0
    have e : gathered b y = G := by simp [gathered, h]
    rw [e]; exact ⟨h1, h2⟩
  obtain ⟨a1, a2⟩ := key x hx
  obtain ⟨b1, b2⟩ := key dx hdx
  obtain ⟨c1, c2⟩ := key (shift x dx s) hx
  funext p
  by_cases hp : total b ≤ p
  · rw [a2 p hp, b2 p hp, c2 p hp]; simp
  · obtain ⟨g, ⟨hg, h1, h2⟩, -⟩ := C08_partition b p (by omega)
    cases hr : b g with
    | none => simp [BlockRestriction.blockSize, hr] at h2; omega
    | some r =>
      simp only [BlockRestriction.blockSize, hr] at h2
      obtain ⟨i, hi, c, hc, j, hj, he⟩ := (C07.C07_positions r (p - start b g)).1 (by omega)
      have hpe : p = start b g + C07.epos r i c j := by omega
      rw [hpe, a1 g hg r hr i hi c hc j hj, b1 g hg r hr i hi c hc j hj, c1 g hg r hr i hi c hc j hj]
      rfl

/-! ### One integral -/

/-- The element vector differentiates to what `GradientMult` computes with the element matrices. -/
theorem vector_derivative (test : Space) (trial : ℕ → Space) (sizes : ℕ → ℕ) (I : UserIntegral Tm Q) (hnd : I.active.Nodup) (hf : Fits test trial I)
    (hwf : ∀ i ∈ I.active, WF ((trial i).get I.boundary) (sizes i)) (w : ℕ) (t : Tm) (q : Q) (xs : ℕ → Vec ℝ) (hxs : ∀ i, (xs i).size = sizes i) (dx : Vec ℝ)
    (hdx : dx.size = sizes w) (hreg : RegularAt trial t q xs I) (p : ℕ) :
    HasDerivAt (fun s : ℝ => I.vector test trial none t q (I.active.map fun i => gathered ((trial i).get I.boundary) (Function.update xs w (shift (xs w) dx s) i)) p)
      (Assemble.gradientMult (test.get I.boundary) ((trial w).get I.boundary)
        ⟨I.boundary, decide (w ∈ I.active), I.geoms, I.matrices trial (I.active.idxOf w) t q (I.active.map fun i => gathered ((trial i).get I.boundary) (xs i))⟩
        (gathered ((trial w).get I.boundary) dx) p) 0 := by
  by_cases hw : w ∈ I.active
  · have hi : I.active.idxOf w < I.active.length := List.idxOf_lt_length_of_mem hw
    set a : Fin I.active.length := ⟨I.active.idxOf w, hi⟩ with ha
    have hga : I.active[a.1]'a.2 = w := List.getElem_idxOf hi
    have hgd : I.active.getD a.1 0 = w := by rw [List.getD_eq_getElem _ _ a.2, hga]
    set Es := I.active.map fun i => gathered ((trial i).get I.boundary) (xs i) with hEs
    have hview : ∀ (g : ℕ) (s : ℝ), I.view trial (I.active.map fun i => gathered ((trial i).get I.boundary) (Function.update xs w (shift (xs w) dx s) i)) g =
        Function.update (I.view trial Es g) a fun p => I.view trial Es g a p + s * gathered ((trial w).get I.boundary) dx (off ((trial w).get I.boundary) g + p) := by
      intro g s
      funext c p
      have e1 : ∀ (f : ℕ → ℕ → ℝ), (I.active.map f).getD c.1 (fun _ => 0) = f (I.active[c.1]'c.2) := by
        intro f
        rw [List.getD_eq_getElem _ _ (by simp), List.getElem_map]
      have e2 : I.active.getD c.1 0 = I.active[c.1]'c.2 := List.getD_eq_getElem _ _ c.2
      by_cases hc : c = a
      · subst hc
        simp only [UserIntegral.view, hEs, e1, Function.update_self, hgd, hga]
        rw [gathered_shift _ (sizes w) (hwf w hw) (xs w) dx (hxs w) hdx s]
      · have hne : I.active[c.1]'c.2 ≠ w := fun e => hc (Fin.ext ((hnd.getElem_inj_iff).1 (e.trans hga.symm)))
        simp only [UserIntegral.view, hEs, e1, Function.update_of_ne hc, Function.update_of_ne hne]
    unfold UserIntegral.vector Assemble.gradientMult
    simp only [hw, decide_true, if_true]
    refine C52.hasDerivAt_sum _ _ _ fun g hg => ?_
    by_cases hp : off (test.get I.boundary) g ≤ p ∧ p < off (test.get I.boundary) g + (test.get I.boundary).blockSize g
    · simp only [if_pos hp]
      cases hk : I.kernels g with
      | none => simpa [UserIntegral.matrices, hk] using hasDerivAt_const (0 : ℝ) (0 : ℝ)
      | some k =>
        obtain ⟨hwr, rs, hrs, hc, hn, -, hall⟩ := hf g k hk
        obtain ⟨rt, hrt, hm, hnt, -⟩ := hall a
        rw [hgd] at hrt
        have hE := written_elements k hwr
        obtain ⟨phi, dphi, wt, h1⟩ := hE.test
        obtain ⟨phi', dphi', h2⟩ := hE.trial a
        obtain ⟨hz, -⟩ := regular_at k t q _ (hreg g k hk) a
        have hpe : perElem (test.get I.boundary) g = k.c * k.test.ndof := by simp [perElem, hrs, hc, hn]
        have hpt : perElem ((trial w).get I.boundary) g = k.m a * (k.trial a).ndof := by simp [perElem, hrt, hm, hnt]
        simp only [hview, UserIntegral.matrices, hk, hpe, hpt]
        rw [Serac.sum_map_range]
        simp only [dif_pos hi]
        set P := p - off (test.get I.boundary) g
        have hpos : 0 < k.c * k.test.ndof := Nat.mul_pos hE.components hE.ndof
        have hP : P / (k.c * k.test.ndof) * (k.c * k.test.ndof) + P % (k.c * k.test.ndof) = P := Nat.div_add_mod' _ _
        have hd := run_derivative k hwr t q _ (hreg g k hk) a (fun p => gathered ((trial w).get I.boundary) dx (off ((trial w).get I.boundary) g + p)) (fun _ => 0)
          (fun _ => AutoDiff.noDerivs) P
        have hmat := C51.C51_matrix h1 h2 k.c (k.m a) hE.components hE.dim (k.shape a) hz (k.store a t q (I.view trial Es g) fun _ => AutoDiff.noDerivs) k.elements
          (fun p => gathered ((trial w).get I.boundary) dx (off ((trial w).get I.boundary) g + p)) (fun _ => 0) (fun _ => 0) (P / (k.c * k.test.ndof)) (P % (k.c * k.test.ndof))
          (Nat.mod_lt _ hpos)
        simp only [sub_zero, hP] at hmat
        unfold Kernel.act at hd
        rw [hmat] at hd
        simpa only [Nat.add_assoc] using hd
    · simp only [if_neg hp]
      exact hasDerivAt_const _ _
  · have hsame : ∀ s : ℝ, (I.active.map fun i => gathered ((trial i).get I.boundary) (Function.update xs w (shift (xs w) dx s) i)) =
        I.active.map fun i => gathered ((trial i).get I.boundary) (xs i) := by
      intro s
      refine List.map_congr_left fun i hi => ?_
      have hne : i ≠ w := by rintro rfl; exact hw hi
      rw [Function.update_of_ne hne]
    simp only [hsame, Assemble.gradientMult, hw, decide_false, Bool.false_eq_true, if_false]
    exact hasDerivAt_const _ _

/-! ### All integrals -/

theorem slot_derivative (b : BlockRestriction) (r : ℕ) (E : ℝ → ℕ → ℝ) (dE : ℕ → ℝ) (h : ∀ p, HasDerivAt (fun s => E s p) (dE p) 0) :
    HasDerivAt (fun s => slotSum b fun g r' i c j => if r'.vdof i j c = r then E s (start b g + C07.epos r' i c j) else 0)
      (slotSum b fun g r' i c j => if r'.vdof i j c = r then dE (start b g + C07.epos r' i c j) else 0) 0 := by
  unfold slotSum
  refine HasDerivAt.fun_sum fun g _ => ?_
  cases b g with
  | none => exact hasDerivAt_const _ _
  | some r' =>
    refine HasDerivAt.fun_sum fun i _ => HasDerivAt.fun_sum fun c _ => HasDerivAt.fun_sum fun j _ => ?_
    dsimp only
    split
    · exact h _
    · exact hasDerivAt_const _ _

theorem gather_all (trial : ℕ → Space) (sizes : ℕ → ℕ) (I : UserIntegral Tm Q) (hwf : ∀ i ∈ I.active, WF ((trial i).get I.boundary) (sizes i)) (xs : ℕ → Vec ℝ)
    (hxs : ∀ i, (xs i).size = sizes i) : I.gather trial xs = some (I.active.map fun i => gathered ((trial i).get I.boundary) (xs i)) :=
  C61.mapM_some _ _ _ fun i hi => gather_eq _ (sizes i) (hwf i hi) (xs i) (hxs i)

/-- The loop of `operator()` along a line beside the loop of `ActionOfGradient`. -/
theorem loop_derivative (n : ℕ) (test : Space) (trial : ℕ → Space) (sizes : ℕ → ℕ) (w : ℕ) (t : Tm) (q : Q) (xs : ℕ → Vec ℝ) (hxs : ∀ i, (xs i).size = sizes i) (dx : Vec ℝ)
    (hdx : dx.size = sizes w) (htest : ∀ b, WF (test.get b) n) (htrial : ∀ b, WF ((trial w).get b) (sizes w)) (Is : List (UserIntegral Tm Q))
    (hnd : ∀ I ∈ Is, I.active.Nodup) (hf : ∀ I ∈ Is, Fits test trial I) (hwf : ∀ I ∈ Is, ∀ i ∈ I.active, WF ((trial i).get I.boundary) (sizes i))
    (hreg : ∀ I ∈ Is, RegularAt trial t q xs I) (L : ℝ → Vec ℝ) (S : Vec ℝ) (hL : ∀ s, (L s).size = n) (hS : S.size = n)
    (hd : ∀ r, HasDerivAt (fun s => (L s).val r) (S.val r) 0) :
    ∃ (Js : List (Assemble.Integral ℝ)) (R : ℝ → Vec ℝ) (A : Vec ℝ), Is.mapM (UserIntegral.gradient trial w t q xs) = some Js ∧
      (∀ J ∈ Js, ∃ I ∈ Is, J.boundary = I.boundary ∧ J.geoms = I.geoms) ∧
      (∀ s, Is.foldlM (residualStep test trial t q (Function.update xs w (shift (xs w) dx s))) (L s) = some (R s)) ∧
      Js.foldlM (Assemble.actionStep test (trial w) dx) S = some A ∧ ∀ r, HasDerivAt (fun s => (R s).val r) (A.val r) 0 := by
  induction Is generalizing L S with
  | nil => exact ⟨[], L, S, rfl, by simp, fun _ => rfl, rfl, hd⟩
  | cons I Is ih =>
    have hwfI := hwf I List.mem_cons_self
    have hsz : ∀ s, ∀ i, (Function.update xs w (shift (xs w) dx s) i).size = sizes i := by
      intro s i
      by_cases h : i = w
      · subst h; simp [shift, hxs]
      · rw [Function.update_of_ne h, hxs]
    have hv := vector_derivative test trial sizes I (hnd I List.mem_cons_self) (hf I List.mem_cons_self) hwfI w t q xs hxs dx hdx (hreg I List.mem_cons_self)
    set J : Assemble.Integral ℝ := ⟨I.boundary, decide (w ∈ I.active), I.geoms, I.matrices trial (I.active.idxOf w) t q
      (I.active.map fun i => gathered ((trial i).get I.boundary) (xs i))⟩ with hJ
    have hJs : UserIntegral.gradient trial w t q xs I = some J := by
      rw [UserIntegral.gradient, gather_all trial sizes I hwfI xs hxs, Option.map_some]
    have hR : ∀ s, ∃ R, residualStep test trial t q (Function.update xs w (shift (xs w) dx s)) (L s) I = some R ∧ R.size = n ∧
        ∀ k, R.val k = (L s).val k + slotSum (test.get I.boundary) (fun g r i c j => if r.vdof i j c = k then
          I.vector test trial none t q (I.active.map fun i => gathered ((trial i).get I.boundary) (Function.update xs w (shift (xs w) dx s) i))
            (start (test.get I.boundary) g + C07.epos r i c j) else 0) := by
      intro s
      rw [residualStep, gather_all trial sizes I hwfI _ (hsz s)]
      exact C08_scatterAdd (test.get I.boundary) n (htest _) _ (L s) (hL s)
    choose R r1 r2 r3 using hR
    obtain ⟨A, a1, a2, a3⟩ := C08_scatterAdd (test.get I.boundary) n (htest _)
      (Assemble.gradientMult (test.get I.boundary) ((trial w).get I.boundary) J (gathered ((trial w).get I.boundary) dx)) S hS
    have hA : Assemble.actionStep test (trial w) dx S J = some A := by
      rw [Assemble.actionStep, show J.boundary = I.boundary from rfl, gather_eq _ (sizes w) (htrial _) dx hdx]
      exact a1
    have hRA : ∀ r, HasDerivAt (fun s => (R s).val r) (A.val r) 0 := by
      intro r
      simp only [r3, a3]
      exact (hd r).add (slot_derivative _ r _ _ hv)
    obtain ⟨Js, R', A', j1, j2, j3, j4, j5⟩ := ih (fun I hI => hnd I (List.mem_cons_of_mem _ hI)) (fun I hI => hf I (List.mem_cons_of_mem _ hI))
      (fun I hI => hwf I (List.mem_cons_of_mem _ hI)) (fun I hI => hreg I (List.mem_cons_of_mem _ hI)) R A r2 a2 hRA
    refine ⟨J :: Js, R', A', ?_, ?_, fun s => ?_, ?_, j5⟩
    · rw [List.mapM_cons, hJs, j1]; rfl
    · intro J' hJ'
      rcases List.mem_cons.1 hJ' with rfl | hJ'
      · exact ⟨I, List.mem_cons_self, rfl, rfl⟩
      · obtain ⟨I', hI', h⟩ := j2 J' hJ'
        exact ⟨I', List.mem_cons_of_mem _ hI', h⟩
    · rw [List.foldlM_cons, r1 s]; exact j3 s
    · rw [List.foldlM_cons, hA]; exact j4

/-- **C106.**  On every mesh, for every list of user-written integrals over elements and boundary elements, at all arguments where the user's functions are differentiable:
evaluating succeeds, assembling the gradient with respect to argument `w` succeeds, and in every row the sparse matrix times any direction is the derivative of the residual. -/
theorem C106_jacobian (n : ℕ) (test : Space) (trial : ℕ → Space) (sizes : ℕ → ℕ) (w : ℕ) (hmesh : C53.OneMesh n (sizes w) test (trial w)) (sgn : ℤ → ℝ) (h1 : sgn 1 = 1)
    (Is : List (UserIntegral Tm Q)) (hnd : ∀ I ∈ Is, I.active.Nodup) (hf : ∀ I ∈ Is, Fits test trial I)
    (hwf : ∀ I ∈ Is, ∀ i ∈ I.active, WF ((trial i).get I.boundary) (sizes i)) (t : Tm) (q : Q) (xs : ℕ → Vec ℝ) (hxs : ∀ i, (xs i).size = sizes i)
    (hreg : ∀ I ∈ Is, RegularAt trial t q xs I) :
    ∃ tables vals, gradient sgn (n + 1) test trial Is w t q xs = some (tables, vals) ∧ ∀ dx : Vec ℝ, dx.size = sizes w → ∃ R : ℝ → Vec ℝ,
      (∀ s, residual (n + 1) test trial Is t q (Function.update xs w (shift (xs w) dx s)) = some (R s)) ∧
      ∀ r < n + 1, HasDerivAt (fun s => (R s).val r) (Csr.mult tables vals.val dx.val r) 0 := by
  have loop := fun (dx : Vec ℝ) (hdx : dx.size = sizes w) => loop_derivative (n + 1) test trial sizes w t q xs hxs dx hdx hmesh.test_wf hmesh.trial_wf Is hnd hf hwf hreg
    (fun _ => ⟨n + 1, fun _ => 0⟩) ⟨n + 1, fun _ => 0⟩ (fun _ => rfl) rfl (fun _ => hasDerivAt_const _ _)
  obtain ⟨Js, -, -, hJs, hgeo, -⟩ := loop ⟨sizes w, fun _ => 0⟩ rfl
  obtain ⟨tables, vals, ha, hmul⟩ := C53.C53_assembled hmesh sgn h1 Js (by
    intro J hJ g hg
    obtain ⟨I, hI, hb, hg'⟩ := hgeo J hJ
    rw [hg'] at hg
    obtain ⟨k, hk⟩ := Option.isSome_iff_exists.1 (List.mem_filter.1 hg).2
    obtain ⟨-, rs, hrs, -⟩ := hf I hI g k hk
    rw [hb, hrs]; rfl)
  refine ⟨tables, vals, ?_, fun dx hdx => ?_⟩
  · unfold gradient
    rw [hJs]
    exact ha
  · obtain ⟨Js', R, A, j1, -, j3, j4, j5⟩ := loop dx hdx
    obtain rfl : Js = Js' := Option.some.inj (hJs.symm.trans j1)
    obtain ⟨S, s1, s2⟩ := hmul dx hdx
    obtain rfl : S = A := Option.some.inj (s1.symm.trans j4)
    exact ⟨R, j3, fun r hr => by rw [s2 r hr]; exact j5 r⟩

theorem sum_filter_zero {A : Type} (l : List A) (P : A → Bool) (f : A → ℝ) (h : ∀ a ∈ l, P a = false → f a = 0) : ((l.filter P).map f).sum = (l.map f).sum := by
  induction l with
  | nil => rfl
  | cons a l ih =>
    have ih' := ih fun b hb => h b (List.mem_cons_of_mem _ hb)
    cases hP : P a with
    | true => simp [hP, ih']
    | false => simp [hP, ih', h a List.mem_cons_self hP]

theorem view_sees (trial : ℕ → Space) (sizes : ℕ → ℕ) (I : UserIntegral Tm Q) (hwf : ∀ i ∈ I.active, WF ((trial i).get I.boundary) (sizes i)) (xs : ℕ → Vec ℝ)
    (hxs : ∀ i, (xs i).size = sizes i) (g : ℕ) (hg : g < numGeometries) :
    Sees trial xs I g (I.view trial (I.active.map fun i => gathered ((trial i).get I.boundary) (xs i)) g) := by
  intro a rt hrt e he c hc j hj
  have hm : I.active[a] ∈ I.active := List.getElem_mem a.2
  obtain ⟨G, h, h1, -⟩ := C08_gather _ _ (hwf _ hm) (xs I.active[a]) (hxs _) fun _ => 0
  have e2 : I.active.getD a.1 0 = I.active[a] := List.getD_eq_getElem _ _ a.2
  rw [← h1 g hg rt hrt e he c hc j hj]
  unfold UserIntegral.view
  rw [List.getD_eq_getElem _ _ (by simp), List.getElem_map, e2, C53.off_eq _ (by omega)]
  change gathered _ (xs I.active[a]) _ = _
  unfold gathered
  change (Option.getD (((trial I.active[a]).get I.boundary).gather (xs I.active[a]) fun _ => 0) fun _ => 0) _ = _
  rw [h]
  rfl

theorem vector_at (test : Space) (trial : ℕ → Space) (I : UserIntegral Tm Q) (t : Tm) (q : Q) (Es : List (ℕ → ℝ)) (g : ℕ) (hg : g < numGeometries) (rs : ElementRestriction)
    (hrs : test.get I.boundary g = some rs) (e c j : ℕ) (he : e < rs.numElements) (hc : c < rs.components) (hj : j < rs.nodesPerElem) :
    I.vector test trial none t q Es (start (test.get I.boundary) g + C07.epos rs e c j) = entry t q I g (I.view trial Es g) (C07.epos rs e c j) := by
  set bs := test.get I.boundary
  have hsize : bs.blockSize g = rs.esize := by simp [BlockRestriction.blockSize, hrs]
  have hpos : C07.epos rs e c j < rs.esize := (C07.C07_positions rs _).2 ⟨e, he, c, hc, j, hj, rfl⟩
  have hblock : ∀ g' < numGeometries, (off bs g' ≤ start bs g + C07.epos rs e c j ∧ start bs g + C07.epos rs e c j < off bs g' + bs.blockSize g') ↔ g' = g := by
    intro g' hg'
    rw [C53.off_eq bs (by omega)]
    constructor
    · intro h'
      have htot : start bs g + C07.epos rs e c j < total bs := by
        have : start bs (g + 1) ≤ total bs := start_mono bs (by omega)
        have h2 : start bs (g + 1) = start bs g + bs.blockSize g := by simp [start, Finset.sum_range_succ]
        omega
      obtain ⟨g0, -, huniq⟩ := C08_partition bs _ htot
      rw [huniq g' ⟨hg', h'⟩, huniq g ⟨hg, by omega, by omega⟩]
    · rintro rfl
      omega
  unfold UserIntegral.vector UserIntegral.geoms
  rw [sum_filter_zero]
  · rw [List.map_congr_left (g := fun g' => if g' = g then entry t q I g (I.view trial Es g) (C07.epos rs e c j) else 0), Serac.sum_map_range,
      Finset.sum_ite_eq' (range numGeometries) g, if_pos (mem_range.2 hg)]
    intro g' hg'
    have hg'' := List.mem_range.1 hg'
    by_cases h : g' = g
    · subst h
      rw [if_pos ((hblock g' hg'').2 rfl), if_pos rfl, C53.off_eq _ (by omega), Nat.add_sub_cancel_left]
      rfl
    · rw [if_neg (fun h' => h ((hblock g' hg'').1 h')), if_neg h]
  · intro g' _ h'
    have hn : I.kernels g' = none := by simpa using h'
    simp [hn]

/-- Every row of the residual is the sum, over the integrals and over all elements, components and nodes numbered with this row, of what the kernels compute there from the
values at their element's degrees of freedom. -/
theorem C106_residual (n : ℕ) (test : Space) (trial : ℕ → Space) (sizes : ℕ → ℕ) (htest : ∀ b, WF (test.get b) n) (Is : List (UserIntegral Tm Q))
    (hwf : ∀ I ∈ Is, ∀ i ∈ I.active, WF ((trial i).get I.boundary) (sizes i)) (t : Tm) (q : Q) (xs : ℕ → Vec ℝ) (hxs : ∀ i, (xs i).size = sizes i) :
    ∃ (R : Vec ℝ) (Us : (I : UserIntegral Tm Q) → ℕ → Fin I.active.length → ℕ → ℝ), (∀ I ∈ Is, ∀ g < numGeometries, Sees trial xs I g (Us I g)) ∧
      residual n test trial Is t q xs = some R ∧ R.size = n ∧
      ∀ r, R.val r = (Is.map fun I => slotSum (test.get I.boundary) fun g rs e c j => if rs.vdof e j c = r then entry t q I g (Us I g) (C07.epos rs e c j) else 0).sum := by
  let Us : (I : UserIntegral Tm Q) → ℕ → Fin I.active.length → ℕ → ℝ := fun I g => I.view trial (I.active.map fun i => gathered ((trial i).get I.boundary) (xs i)) g
  have loop : ∀ (L : Vec ℝ), L.size = n → ∃ R : Vec ℝ, Is.foldlM (residualStep test trial t q xs) L = some R ∧ R.size = n ∧
      ∀ r, R.val r = L.val r +
        (Is.map fun I => slotSum (test.get I.boundary) fun g rs e c j => if rs.vdof e j c = r then entry t q I g (Us I g) (C07.epos rs e c j) else 0).sum := by
    induction Is with
    | nil => exact fun L hL => ⟨L, rfl, hL, by simp⟩
    | cons I Is ih =>
      intro L hL
      have hwfI := hwf I List.mem_cons_self
      obtain ⟨R, r1, r2, r3⟩ := C08_scatterAdd (test.get I.boundary) n (htest _)
        (I.vector test trial none t q (I.active.map fun i => gathered ((trial i).get I.boundary) (xs i))) L hL
      obtain ⟨R', s1, s2, s3⟩ := ih (fun I hI => hwf I (List.mem_cons_of_mem _ hI)) R r2
      refine ⟨R', ?_, s2, fun r => ?_⟩
      · rw [List.foldlM_cons, residualStep, gather_all trial sizes I hwfI xs hxs]
        change ((test.get I.boundary).scatterAdd _ L).bind _ = _
        rw [r1]
        exact s1
      · rw [s3, r3, List.map_cons, List.sum_cons, add_assoc]
        congr 2
        unfold slotSum
        refine Finset.sum_congr rfl fun g hg => ?_
        cases hrs : test.get I.boundary g with
        | none => rfl
        | some rs =>
          refine Finset.sum_congr rfl fun e he => Finset.sum_congr rfl fun c hc => Finset.sum_congr rfl fun j hj => ?_
          dsimp only
          rw [vector_at test trial I t q _ g (mem_range.1 hg) rs hrs e c j (mem_range.1 he) (mem_range.1 hc) (mem_range.1 hj)]
  obtain ⟨R, r1, r2, r3⟩ := loop ⟨n, fun _ => 0⟩ rfl
  exact ⟨R, Us, fun I hI g hg => view_sees trial sizes I (hwf I hI) xs hxs g hg, r1, r2, fun r => by rw [r3]; simp⟩

/-! ### Several processors -/

/-- A processor's part: a mesh as in C53, integrals that fit it. -/
structure GoodProc (p : Proc Tm Q) (w : ℕ) : Prop where
  mesh : ∃ n, p.lsize = n + 1 ∧ C53.OneMesh n (p.sizes w) p.test (p.trial w)
  nodup : ∀ I ∈ p.integrals, I.active.Nodup
  fits : ∀ I ∈ p.integrals, Fits p.test p.trial I
  wf : ∀ I ∈ p.integrals, ∀ i ∈ I.active, WF ((p.trial i).get I.boundary) (p.sizes i)

theorem csr_mult (t : Csr.Tables) (vals : ℕ → ℝ) (m : ℕ) (y : ℕ → ℝ) (hy : ∀ s, m ≤ s → y s = 0) (r : ℕ) :
    Csr.mult t vals y r = ∑ s ∈ range m, csrEntry t vals r s * y s := by
  unfold Csr.mult csrEntry
  induction List.range' (t.rowPtr.val r) (t.rowPtr.val (r + 1) - t.rowPtr.val r) with
  | nil => simp
  | cons k l ih =>
    simp only [List.map_cons, List.sum_cons, add_mul, sum_add_distrib]
    rw [ih]
    congr 1
    simp only [ite_mul, zero_mul]
    rw [Finset.sum_ite_eq (range m) (t.colInd.getD k 0)]
    split
    · rfl
    · rename_i h
      rw [hy _ (by simpa using h), mul_zero]

theorem prolong_line (p : Proc Tm Q) (N : ℕ → ℕ) (xs : ℕ → ℕ → ℝ) (w : ℕ) (dx : ℕ → ℝ) (s : ℝ) :
    (fun i => p.prolong N i (Function.update xs w (xs w + s • dx) i)) =
      Function.update (fun i => p.prolong N i (xs i)) w (shift (p.prolong N w (xs w)) (p.prolong N w dx) s) := by
  funext i
  by_cases h : i = w
  · subst h
    rw [Function.update_self, Function.update_self]
    unfold Proc.prolong shift
    congr 1
    funext r
    dsimp only
    split
    · rw [mul_sum, ← sum_add_distrib]
      refine sum_congr rfl fun c _ => ?_
      simp only [Pi.add_apply, Pi.smul_apply, smul_eq_mul]
      ring
    · simp
  · rw [Function.update_of_ne h, Function.update_of_ne h]

theorem rap_sum (N : ℕ → ℕ) (ps : List (Proc Tm Q)) (A : Proc Tm Q → Csr.Tables × Vec ℝ) (w i : ℕ) (dx : ℕ → ℝ) :
    ∑ c ∈ range (N w), (ps.map fun p => ∑ r ∈ range p.lsize, ∑ s ∈ range (p.sizes w), p.R r i * csrEntry (A p).1 (A p).2.val r s * p.P w s c).sum * dx c =
      (ps.map fun p => ∑ r ∈ range p.lsize, p.R r i * ∑ s ∈ range (p.sizes w), csrEntry (A p).1 (A p).2.val r s * (p.prolong N w dx).val s).sum := by
  induction ps with
  | nil => simp
  | cons p ps ih =>
    simp only [List.map_cons, List.sum_cons, add_mul, sum_add_distrib]
    rw [ih]
    congr 1
    simp only [sum_mul]
    rw [sum_comm]
    refine sum_congr rfl fun r _ => ?_
    rw [sum_comm, mul_sum]
    refine sum_congr rfl fun s hs => ?_
    simp only [Proc.prolong, if_pos (mem_range.1 hs)]
    rw [mul_sum, mul_sum]
    exact sum_congr rfl fun c _ => by ring

/-- **C106, several processors.**  The global matrix times a direction is the derivative of the global residual, in every row, for every distribution of the mesh. -/
theorem C106_parallel (sgn : ℤ → ℝ) (h1 : sgn 1 = 1) (N : ℕ → ℕ) (ps : List (Proc Tm Q)) (w : ℕ) (t : Tm) (xs : ℕ → ℕ → ℝ) (hp : ∀ p ∈ ps, GoodProc p w)
    (hreg : ∀ p ∈ ps, ∀ I ∈ p.integrals, RegularAt p.trial t p.q (fun i => p.prolong N i (xs i)) I) :
    ∃ K, matrixT sgn N ps w t xs = some K ∧ ∀ dx : ℕ → ℝ, ∃ R : ℝ → ℕ → ℝ,
      (∀ s, residualT N ps t (Function.update xs w (xs w + s • dx)) = some (R s)) ∧ ∀ i, HasDerivAt (fun s => R s i) (∑ c ∈ range (N w), K i c * dx c) 0 := by
  have one : ∀ p ∈ ps, ∃ A : Csr.Tables × Vec ℝ, gradient sgn p.lsize p.test p.trial p.integrals w t p.q (fun i => p.prolong N i (xs i)) = some A ∧
      ∀ dx : ℕ → ℝ, ∃ R : ℝ → Vec ℝ, (∀ s, residual p.lsize p.test p.trial p.integrals t p.q (fun i => p.prolong N i (Function.update xs w (xs w + s • dx) i)) = some (R s)) ∧
        (∀ s, (R s).size = p.lsize) ∧ ∀ r < p.lsize, HasDerivAt (fun s => (R s).val r) (∑ s ∈ range (p.sizes w), csrEntry A.1 A.2.val r s * (p.prolong N w dx).val s) 0 := by
    intro p hpp
    obtain ⟨⟨n, hn, hmesh⟩, hnd, hf, hwf⟩ := hp p hpp
    obtain ⟨tb, vals, ha, hd⟩ := C106_jacobian n p.test p.trial p.sizes w hmesh sgn h1 p.integrals hnd hf hwf t p.q (fun i => p.prolong N i (xs i)) (fun _ => rfl) (hreg p hpp)
    rw [← hn] at ha
    refine ⟨(tb, vals), ha, fun dx => ?_⟩
    obtain ⟨R, r1, r2⟩ := hd (p.prolong N w dx) rfl
    have hR : ∀ s, residual p.lsize p.test p.trial p.integrals t p.q (fun i => p.prolong N i (Function.update xs w (xs w + s • dx) i)) = some (R s) := by
      intro s
      rw [prolong_line, hn]
      exact r1 s
    refine ⟨R, hR, fun s => ?_, fun r hr => ?_⟩
    · obtain ⟨R', -, -, e1, e2, -⟩ := C106_residual p.lsize p.test p.trial p.sizes (by rw [hn]; exact hmesh.test_wf) p.integrals hwf t p.q
        (fun i => p.prolong N i (Function.update xs w (xs w + s • dx) i)) (fun _ => rfl)
      obtain rfl : R' = R s := Option.some.inj (e1.symm.trans (hR s))
      exact e2
    · rw [← csr_mult tb vals.val (p.sizes w) (p.prolong N w dx).val (fun s hs => by simp [Proc.prolong, Nat.not_lt.2 hs]) r]
      exact r2 r (by omega)
  classical
  let A : Proc Tm Q → Csr.Tables × Vec ℝ := fun p => if h : p ∈ ps then (one p h).choose else (⟨0, ⟨0, fun _ => 0⟩, [], fun _ => none⟩, ⟨0, fun _ => 0⟩)
  have hA : ∀ p (h : p ∈ ps), A p = (one p h).choose := fun p h => dif_pos h
  have hmat : matrixT sgn N ps w t xs = some fun i c => ((ps.map fun p => (p, A p)).map fun a => ∑ r ∈ range a.1.lsize, ∑ s ∈ range (a.1.sizes w),
      a.1.R r i * csrEntry a.2.1 a.2.2.val r s * a.1.P w s c).sum := by
    unfold matrixT
    rw [C61.mapM_some ps _ (fun p => (p, A p)) fun p h => by rw [(one p h).choose_spec.1, hA p h]; rfl]
    rfl
  refine ⟨_, hmat, fun dx => ?_⟩
  have loc : ∀ p ∈ ps, ∃ R : ℝ → Vec ℝ, (∀ s, residual p.lsize p.test p.trial p.integrals t p.q (fun i => p.prolong N i (Function.update xs w (xs w + s • dx) i)) = some (R s)) ∧
        (∀ s, (R s).size = p.lsize) ∧
        ∀ r < p.lsize, HasDerivAt (fun s => (R s).val r) (∑ s ∈ range (p.sizes w), csrEntry (A p).1 (A p).2.val r s * (p.prolong N w dx).val s) 0 := by
    intro p h
    rw [hA p h]
    exact (one p h).choose_spec.2 dx
  let L : Proc Tm Q → ℝ → Vec ℝ := fun p => if h : p ∈ ps then (loc p h).choose else fun _ => ⟨0, fun _ => 0⟩
  have hL : ∀ p (h : p ∈ ps), L p = (loc p h).choose := fun p h => dif_pos h
  refine ⟨fun s i => ((ps.map fun p => (p, L p s)).map fun l => ∑ r ∈ range l.2.size, l.1.R r i * l.2.val r).sum, fun s => ?_, fun i => ?_⟩
  · unfold residualT
    rw [C61.mapM_some ps _ (fun p => (p, L p s)) fun p h => by rw [(loc p h).choose_spec.1 s, hL p h]; rfl]
    rfl
  · simp only [List.map_map, Function.comp_def]
    rw [rap_sum N ps A w i dx]
    refine C52.hasDerivAt_sum _ _ _ fun p h => ?_
    obtain ⟨-, l2, l3⟩ := (loc p h).choose_spec
    rw [← hL p h] at l2 l3
    simp only [l2]
    exact HasDerivAt.fun_sum fun r hr => (l3 r (mem_range.1 hr)).const_mul _

/-- The vector an integral adds does not depend on which derivatives are asked for. -/
theorem C106_value (test : Space) (trial : ℕ → Space) (I : UserIntegral Tm Q) (hf : Fits test trial I) (w : Option (Fin I.active.length)) (t : Tm) (q : Q) (Es : List (ℕ → ℝ)) :
    I.vector test trial w t q Es = I.vector test trial none t q Es := by
  funext p
  unfold UserIntegral.vector
  refine congrArg List.sum (List.map_congr_left fun g _ => ?_)
  cases hk : I.kernels g with
  | none => rfl
  | some k => simp only [C105.run_values k (hf g k hk).1 w]

/-! ### Example

C53's mesh of a triangle, a quadrilateral and two boundary edges; C104's nonlinear conduction on the triangle and convection on both edges, with temperature and conductivity as
arguments. -/

noncomputable def exTri : Kernel ℝ Unit 2 :=
  domainKernel .two C104.exQ (fun _ => C104.exJ.transpose) (fun _ _ _ => Empty.elim) (simplex C51.tri) (fun _ => simplex C51.tri) [0]
noncomputable def exEdges : Kernel ℝ Unit 2 :=
  faceKernel .two C104.exFace (fun _ _ j => if j = 0 then 3 else 4) (fun _ _ _ => Empty.elim) (segmentElem C105.exRule) (fun _ => segmentElem C105.exRule) [1, 0]

noncomputable def exI : UserIntegral ℝ Unit := ⟨false, [0, 1], fun g => if g = 2 then some exTri else none⟩
noncomputable def exB : UserIntegral ℝ Unit := ⟨true, [0, 1], fun g => if g = 1 then some exEdges else none⟩

theorem exTri_written : Written exTri :=
  Written.domain .two C104.exQ (fun _ => C104.exJ) (fun _ _ _ => Empty.elim) (simplex C51.tri) (fun _ => simplex C51.tri) [0] (Or.inl rfl) (fun _ => rfl)
    ⟨⟨_, _, _, (C51.C51_simplex C51.tri).2⟩, fun _ => ⟨_, _, (C51.C51_simplex C51.tri).1⟩, one_pos, by simp [domainKernel, simplex, C51.tri],
      by simp [domainKernel, simplex, C51.tri]⟩

theorem exEdges_written : Written exEdges :=
  Written.face .two C104.exFace (fun _ _ j => if j = 0 then 3 else 4) (fun _ _ _ => Empty.elim) (segmentElem C105.exRule) (fun _ => segmentElem C105.exRule) [1, 0] (fun _ => rfl)
    ⟨⟨_, _, _, (C51.C51_segment C105.exRule).2⟩, fun _ => ⟨_, _, (C51.C51_segment C105.exRule).1⟩, one_pos, by simp [faceKernel, segmentElem],
      by simp [faceKernel, segmentElem, C105.exRule]⟩

theorem exTri_regular (t : ℝ) (q : Unit) (Us : Fin 2 → ℕ → ℝ) : Regular t q Us exTri :=
  Regular.domain .two C104.exQ (fun _ => C104.exJ) (fun _ _ _ => Empty.elim) (simplex C51.tri) (fun _ => simplex C51.tri) [0] (Or.inl rfl) (fun _ => rfl)
    fun _ _ _ _ => ⟨by rw [C104.exJ_det]; norm_num, C104.exGood _ _ _⟩

theorem exEdges_regular (t : ℝ) (q : Unit) (Us : Fin 2 → ℕ → ℝ) : Regular t q Us exEdges :=
  Regular.face .two C104.exFace (fun _ _ j => if j = 0 then 3 else 4) (fun _ _ _ => Empty.elim) (segmentElem C105.exRule) (fun _ => segmentElem C105.exRule) [1, 0] (fun _ => rfl)
    fun _ _ _ _ _ => by simp [C104.exFace, C12.Good, C12.Good2]

theorem exI_fits : Fits C53.exSpace (fun _ => C53.exSpace) exI := by
  intro g k h
  dsimp only [exI] at h
  split at h
  · rename_i hg
    obtain rfl := Option.some.inj h
    subst hg
    exact ⟨exTri_written, C53.nodal 3 [[0, 1, 2]], rfl, rfl, rfl, by simp [exTri, domainKernel, C53.nodal, ElementRestriction.build],
      fun a => ⟨C53.nodal 3 [[0, 1, 2]], rfl, by fin_cases a <;> rfl, rfl, rfl⟩⟩
  · cases h

theorem exB_fits : Fits C53.exSpace (fun _ => C53.exSpace) exB := by
  intro g k h
  dsimp only [exB] at h
  split at h
  · rename_i hg
    obtain rfl := Option.some.inj h
    subst hg
    exact ⟨exEdges_written, C53.nodal 2 [[0, 1], [3, 4]], rfl, rfl, rfl, by simp [exEdges, faceKernel, C53.nodal, ElementRestriction.build],
      fun a => ⟨C53.nodal 2 [[0, 1], [3, 4]], rfl, by fin_cases a <;> rfl, rfl, rfl⟩⟩
  · cases h

/-- The tangent by temperature (`w = 0`) and the sensitivity to the conductivity (`w = 1`). -/
example (w : ℕ) (xs : ℕ → Vec ℝ) (hxs : ∀ i, (xs i).size = 5) :
    ∃ tables vals, gradient (fun z => (z : ℝ)) 5 C53.exSpace (fun _ => C53.exSpace) [exI, exB] w 0 () xs = some (tables, vals) ∧ ∀ dx : Vec ℝ, dx.size = 5 → ∃ R : ℝ → Vec ℝ,
      (∀ s, residual 5 C53.exSpace (fun _ => C53.exSpace) [exI, exB] 0 () (Function.update xs w (shift (xs w) dx s)) = some (R s)) ∧
      ∀ r < 5, HasDerivAt (fun s => (R s).val r) (Csr.mult tables vals.val dx.val r) 0 := by
  refine C106_jacobian 4 C53.exSpace (fun _ => C53.exSpace) (fun _ => 5) w C53.ex_mesh (fun z => (z : ℝ)) (by simp) [exI, exB] ?_ ?_ ?_ 0 () xs hxs ?_
  · intro I hI
    simp only [List.mem_cons, List.not_mem_nil, or_false] at hI
    rcases hI with rfl | rfl <;> simp [exI, exB]
  · intro I hI
    simp only [List.mem_cons, List.not_mem_nil, or_false] at hI
    rcases hI with rfl | rfl
    · exact exI_fits
    · exact exB_fits
  · intro I _ i _
    exact C53.ex_mesh.trial_wf _
  · intro I hI g k h
    simp only [List.mem_cons, List.not_mem_nil, or_false] at hI
    rcases hI with rfl | rfl
    · dsimp only [exI] at h
      split at h
      · obtain rfl := Option.some.inj h; exact exTri_regular _ _ _
      · cases h
    · dsimp only [exB] at h
      split at h
      · obtain rfl := Option.some.inj h; exact exEdges_regular _ _ _
      · cases h

/-- Row 1 of the residual belongs to the triangle and to an edge; nothing else is needed for the residual to be the sum. -/
example (xs : ℕ → Vec ℝ) (hxs : ∀ i, (xs i).size = 5) : ∃ R, residual 5 C53.exSpace (fun _ => C53.exSpace) [exI, exB] 0 () xs = some R ∧ R.size = 5 := by
  obtain ⟨R, -, -, h, h', -⟩ := C106_residual 5 C53.exSpace (fun _ => C53.exSpace) (fun _ => 5) C53.ex_mesh.test_wf [exI, exB] (fun I _ i _ => C53.ex_mesh.trial_wf _) (0 : ℝ) () xs hxs
  exact ⟨R, h, h'⟩

/-- Two processors that share a node: local node `r` of processor `k` is node `4 k + r`. -/
noncomputable def exProc (k : ℕ) (Is : List (UserIntegral ℝ Unit)) : Proc ℝ Unit where
  test := C53.exSpace
  trial _ := C53.exSpace
  lsize := 5
  sizes _ := 5
  integrals := Is
  q := ()
  R r c := if c = 4 * k + r then 1 else 0
  P _ r c := if c = 4 * k + r then 1 else 0

example (w : ℕ) (xs : ℕ → ℕ → ℝ) :
    ∃ K, matrixT (fun z => (z : ℝ)) (fun _ => 9) [exProc 0 [exI, exB], exProc 1 [exI]] w 0 xs = some K ∧ ∀ dx : ℕ → ℝ, ∃ R : ℝ → ℕ → ℝ,
      (∀ s, residualT (fun _ => 9) [exProc 0 [exI, exB], exProc 1 [exI]] 0 (Function.update xs w (xs w + s • dx)) = some (R s)) ∧
      ∀ i, HasDerivAt (fun s => R s i) (∑ c ∈ range 9, K i c * dx c) 0 := by
  have hgood : ∀ (k : ℕ) (Is : List (UserIntegral ℝ Unit)), (∀ I ∈ Is, I = exI ∨ I = exB) → GoodProc (exProc k Is) w := by
    intro k Is h
    refine ⟨⟨4, rfl, C53.ex_mesh⟩, fun I hI => ?_, fun I hI => ?_, fun I hI i _ => C53.ex_mesh.trial_wf _⟩
    · rcases h I hI with rfl | rfl <;> simp [exI, exB]
    · rcases h I hI with rfl | rfl
      · exact exI_fits
      · exact exB_fits
  have hreg : ∀ (Is : List (UserIntegral ℝ Unit)), (∀ I ∈ Is, I = exI ∨ I = exB) → ∀ I ∈ Is, ∀ ys : ℕ → Vec ℝ, RegularAt (fun _ => C53.exSpace) (0 : ℝ) () ys I := by
    intro Is h I hI ys g kk hk
    rcases h I hI with rfl | rfl
    · dsimp only [exI] at hk
      split at hk
      · obtain rfl := Option.some.inj hk; exact exTri_regular _ _ _
      · cases hk
    · dsimp only [exB] at hk
      split at hk
      · obtain rfl := Option.some.inj hk; exact exEdges_regular _ _ _
      · cases hk
  refine C106_parallel (fun z => (z : ℝ)) (by simp) (fun _ => 9) _ w 0 xs (fun p hp => ?_) fun p hp I hI => ?_
  · simp only [List.mem_cons, List.not_mem_nil, or_false] at hp
    rcases hp with rfl | rfl <;> exact hgood _ _ (by simp)
  · simp only [List.mem_cons, List.not_mem_nil, or_false] at hp
    rcases hp with rfl | rfl
    · exact hreg [exI, exB] (by simp) I hI _
    · exact hreg [exI] (by simp) I hI _

end Serac.C106
