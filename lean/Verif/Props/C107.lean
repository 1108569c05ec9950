import Verif.Model.UserQoI
import Verif.Props.C61
import Verif.Props.C105
import Mathlib.Data.List.GetD
import Mathlib.Tactic.FinCases
/-!
# C107: gradients of quantities of interest of user-written integrands

Spec.  A quantity of interest as in C61 whose integrals are user-written functions on elements or boundary elements.  Its value is the sum over processors, elements and
quadrature points of weight times volume (area) times the user's function (`C107_value`, `C107_face_value` with `C61_value`); the assembled gradient and the action of the
gradient are its derivative (`C107_gradient`).
-/

namespace Serac.C107
open Serac.Kernels Serac.UserFn Serac.UserAsm Serac.UserQoI Serac.AutoDiff Serac.Transform Serac.C51 Serac.C104 Finset
open Serac.C105 (Written Regular Elements written_elements regular_at run_derivative run_at run_values)
open Serac.Assemble (Space off perElem)

variable {Tm Q : Type} {A : ℕ}

/-! ### Spec -/

/-- The integral is written for a quantity of interest, with as many components and nodes as the spaces of its arguments. -/
def Scalar (rk : QoI.Rank) (I : UserIntegral Tm Q) : Prop :=
  ∀ g k, I.kernels g = some k → Written k ∧ k.c = 1 ∧ k.test.ndof = 1 ∧
    ∀ a : Fin I.active.length, ∃ rt, (rk.space I.active[a]).get I.boundary g = some rt ∧ k.m a = rt.components ∧ (k.trial a).ndof = rt.nodesPerElem

/-- On every element of the domain the user's functions are differentiable at the arguments' values and the Jacobians invertible. -/
def RegularAt (rk : QoI.Rank) (n : ℕ → ℕ) (q : Q) (t : Tm) (args : ℕ → ℕ → ℝ) (I : UserIntegral Tm Q) : Prop :=
  ∀ g k, I.kernels g = some k → ∀ ee ∈ k.elements.zipIdx, Regular t q (argsOf (C61.inputsAt rk n (toQoI q I) args g ee.1)) (single k ee.2)

/-! ### The body of the loop -/

theorem single_written (k : Kernel Tm Q A) (h : Written k) (i : ℕ) : Written (single k i) := by
  cases h with
  | @domain κ m c d f J data test trial elements hd hd' he =>
    exact Written.domain d f (fun p => J (i * test.npts + p)) (fun t q p => data t q (i * test.npts + p)) test trial [0] hd hd' ⟨he.test, he.trial, he.components, he.dim, he.ndof⟩
  | @face κ m c d f jac data test trial elements hd' he =>
    exact Written.face d f (fun p => jac (i * test.npts + p)) (fun t q p => data t q (i * test.npts + p)) test trial [0] hd' ⟨he.test, he.trial, he.components, he.dim, he.ndof⟩

theorem written_shape (k : Kernel Tm Q A) (h : Written k) (a : Fin A) : k.test.dim = (k.trial a).dim ∨ ((k.shape a).z10 && (k.shape a).z11) = true := by
  cases h with
  | @domain κ m c d f J data test trial elements hd hd' he =>
    rcases hd with e | e
    · exact Or.inl (e.trans (hd' a).symm)
    · exact Or.inr (by simp [domainKernel, QFun.shape, QFun.fluxKind, e, Kind.hasValue, Kind.hasGrad])
  | @face κ m c d f jac data test trial elements hd' he => exact Or.inr (by simp [faceKernel, faceShape])

/-- **C107, elements.**  The numbers a kernel adds to its output are those of its loop's bodies, whatever is differentiated. -/
theorem C107_elements (k : Kernel Tm Q A) (h : Written k) (hc : k.c = 1) (hn : k.test.ndof = 1) (w : Option (Fin A)) (t : Tm) (q : Q) (Us : Fin A → ℕ → ℝ) (el : ℕ) :
    k.run w t q Us (fun _ => 0) el = (k.elements.zipIdx.map fun ee => if ee.1 = el then
      (single k ee.2).run none t q (fun a p => Us a (el * (k.m a * (k.trial a).ndof) + p)) (fun _ => 0) 0 else 0).sum := by
  have hE := written_elements k h
  obtain ⟨phi, dphi, wt, h1⟩ := hE.test
  rw [run_values k h w]
  have hl := run_at k h1 hE.components hE.dim none t q Us (fun _ => 0) el 0 (by rw [hc, hn]; norm_num)
  rw [hc, hn] at hl
  simp only [mul_one, add_zero, zero_add] at hl
  rw [hl]
  refine congrArg List.sum (List.map_congr_left fun ee _ => ?_)
  by_cases he : ee.1 = el
  · rw [if_pos he, if_pos he]
    have hr := run_at (single k ee.2) (show Test (single k ee.2).test phi dphi wt from h1) hE.components hE.dim none t q (fun a p => Us a (el * (k.m a * (k.trial a).ndof) + p))
      (fun _ => 0) 0 0 (by change 0 < k.c * k.test.ndof; rw [hc, hn]; norm_num)
    simp only [zero_mul, add_zero, zero_add] at hr
    rw [hr]
    have hf : ∀ P, (single k ee.2).fields (fun a p => Us a (el * (k.m a * (k.trial a).ndof) + p)) 0 P = k.fields Us el P := by
      intro P
      funext a
      simp [single, Kernel.fields]
    simp only [show (single k ee.2).elements = [0] from rfl, List.zipIdx_cons, List.zipIdx_nil, List.map_cons, List.map_nil, if_true, List.sum_cons, List.sum_nil, add_zero, hf]
    simp [single, he, hn]
  · rw [if_neg he, if_neg he]

/-- **C107, values.**  The number of an element is the sum over its points of weight times the user's function, transformed with the Jacobian. -/
theorem C107_value {κ : Type} {m : Fin A → ℕ} (d : Dim) (f : QFun A m d.n κ 1) (J : ℕ → Matrix (Fin d.n) (Fin d.n) ℝ) (data : Tm → Q → ℕ → κ → ℝ) (test : Elem ℝ)
    (trial : Fin A → Elem ℝ) (elements : List ℕ) {wt} (h : Test test (fun _ _ => 1) (fun _ _ _ => 0) wt) (hn : test.ndof = 1) (hd : 0 < test.dim) (t : Tm) (q : Q)
    (Us : Fin A → ℕ → ℝ) (i : ℕ) (hJ : ∀ P < test.npts, (J (i * test.npts + P)).det ≠ 0) :
    (single (domainKernel d f (fun p => (J p).transpose) data test trial elements) i).run none t q Us (fun _ => 0) 0 =
      ∑ P ∈ range test.npts, wt P * specSource f (J (i * test.npts + P)) (data t q (i * test.npts + P))
        ((domainKernel d f (fun p => (J p).transpose) data test trial elements).fields Us 0 P) 0 := by
  have hv := C105.C105_value d f (fun p => J (i * test.npts + p)) (fun t q p => data t q (i * test.npts + p)) test trial [0] h one_pos hd none t q Us
    (fun ee hee P hP => by
      simp only [List.zipIdx_cons, List.zipIdx_nil, List.mem_cons, List.not_mem_nil, or_false] at hee
      subst hee
      simpa using hJ P hP) 0 0 (by rw [hn]; norm_num)
  simp only [List.zipIdx_cons, List.zipIdx_nil, List.map_cons, List.map_nil, if_true, List.sum_cons, List.sum_nil, add_zero, zero_mul, zero_add, mul_zero, Finset.sum_const_zero,
    mul_one, Nat.zero_div] at hv
  exact hv

/-- On boundary elements: weight times area times the user's function. -/
theorem C107_face_value {κ : Type} {m : Fin A → ℕ} (d : Dim) (f : Fin 1 → Expr (Input A m (faceDim d) κ)) (jac : ℕ → Fin (faceDim d) → Fin d.n → ℝ)
    (data : Tm → Q → ℕ → κ → ℝ) (test : Elem ℝ) (trial : Fin A → Elem ℝ) (elements : List ℕ) {wt} (h : Test test (fun _ _ => 1) (fun _ _ _ => 0) wt) (hn : test.ndof = 1)
    (hd : 0 < test.dim) (t : Tm) (q : Q) (Us : Fin A → ℕ → ℝ) (i : ℕ) :
    (single (faceKernel d f jac data test trial elements) i).run none t q Us (fun _ => 0) 0 =
      ∑ P ∈ range test.npts, wt P * (area d (jac (i * test.npts + P)) *
        C12.plain (faceReads (data t q (i * test.npts + P)) ((faceKernel d f jac data test trial elements).fields Us 0 P)) (f 0)) := by
  have hv := C105.C105_face_value d f (fun p => jac (i * test.npts + p)) (fun t q p => data t q (i * test.npts + p)) test trial [0] h one_pos hd none t q Us 0 0 0
    (by rw [hn]; norm_num)
  simp only [List.zipIdx_cons, List.zipIdx_nil, List.map_cons, List.map_nil, if_true, List.sum_cons, List.sum_nil, add_zero, zero_mul, zero_add, mul_one, Fin.val_zero] at hv
  exact hv

/-! ### Hypotheses of C61 -/

theorem argsOf_set {xs : List (ℕ → ℝ)} (a : Fin A) (hl : xs.length = A) (y : ℕ → ℝ) :
    argsOf (xs.set a.1 y) = Function.update (argsOf xs) a y := by
  funext b
  by_cases h : b = a
  · subst h
    rw [Function.update_self, argsOf, List.getD_eq_getElem _ _ (by simp [hl])]
    simp
  · have hne : a.1 ≠ b.1 := fun e => h (Fin.ext e.symm)
    rw [Function.update_of_ne h]
    unfold argsOf
    rw [List.getD_eq_getElem _ _ (by simp [hl]), List.getD_eq_getElem _ _ (by simp [hl]), List.getElem_set_ne hne]

/-- **C107, rows.**  The action on an element is the product with its row. -/
theorem C107_row (rk : QoI.Rank) (q : Q) (I : UserIntegral Tm Q) (hs : Scalar rk I) : C61.RowOK rk (toQoI q I) := by
  intro j i hj g D x
  have hlt : j < I.active.length := by
    by_contra hc
    rw [show (toQoI q I).active = I.active from rfl, List.getElem?_eq_none (by omega)] at hj
    cases hj
  have hi : I.active[j] = i := by
    have : I.active[j]? = some i := hj
    rw [List.getElem?_eq_getElem hlt] at this
    exact Option.some.inj this
  cases hk : I.kernels g with
  | none => simp [toQoI, hk]
  | some k =>
    obtain ⟨hw, hc, hn, hall⟩ := hs g k hk
    obtain ⟨rt, hrt, hm, hnt⟩ := hall ⟨j, hlt⟩
    have hrt' : (rk.space i).get I.boundary g = some rt := hi ▸ hrt
    have hE := written_elements k hw
    obtain ⟨phi, dphi, wt, h1⟩ := hE.test
    obtain ⟨phi', dphi', h2⟩ := hE.trial ⟨j, hlt⟩
    have hp : perElem ((rk.space i).get (toQoI q I).boundary) g = k.m ⟨j, hlt⟩ * (k.trial ⟨j, hlt⟩).ndof := by
      change perElem ((rk.space i).get I.boundary) g = _
      simp [perElem, hrt', hm, hnt]
    rw [hp]
    have hmat := C51_matrix h1 h2 k.c (k.m ⟨j, hlt⟩) hE.components hE.dim (k.shape ⟨j, hlt⟩) (written_shape k hw _) D [0] x (fun _ => 0) (fun _ => 0) 0 0
      (by rw [hc, hn]; norm_num)
    simp only [sub_zero, zero_mul, zero_add, add_zero] at hmat
    simpa [toQoI, hk, hlt] using hmat

/-- **C107, derivatives.**  The action with the stored derivatives is the derivative of the element's number. -/
theorem C107_differentiates (rk : QoI.Rank) (n : ℕ → ℕ) (q : Q) (w : ℕ) (t : Tm) (args : ℕ → ℕ → ℝ) (I : UserIntegral Tm Q) (hs : Scalar rk I)
    (hreg : RegularAt rk n q t args I) : C61.DifferentiatesAt rk n w t args (toQoI q I) := by
  intro j hj g hg ee hee dx
  have hlt : j < I.active.length := by
    by_contra hc
    rw [show (toQoI q I).active = I.active from rfl, List.getElem?_eq_none (by omega)] at hj
    cases hj
  cases hk : I.kernels g with
  | none => simp [toQoI, hk] at hee
  | some k =>
    have hee' : ee ∈ k.elements.zipIdx := by simpa [toQoI, hk] using hee
    obtain ⟨hw, -⟩ := hs g k hk
    set xs := C61.inputsAt rk n (toQoI q I) args g ee.1 with hxs
    have hlen : xs.length = I.active.length := by simp [hxs, C61.inputsAt, toQoI]
    have hx : argsOf (A := I.active.length) xs ⟨j, hlt⟩ = C61.dofsAt rk n I.boundary g ee.1 w (args w) := by
      have hj' : I.active[j]? = some w := hj
      rw [List.getElem?_eq_getElem hlt] at hj'
      rw [argsOf, List.getD_eq_getElem _ _ (by omega)]
      simp only [hxs, C61.inputsAt, List.getElem_map]
      rw [show (toQoI q I).active[j] = w from Option.some.inj hj']
      rfl
    have hd := run_derivative (single k ee.2) (single_written k hw ee.2) t q (argsOf xs) (hreg g k hk ee hee') ⟨j, hlt⟩ dx (fun _ => 0) (fun _ => noDerivs) 0
    have e1 : ∀ h : ℝ, (toQoI q I).value g ee.2 t (xs.set j (C61.dofsAt rk n (toQoI q I).boundary g ee.1 w (args w) + h • dx)) =
        (single k ee.2).run none t q (Function.update (argsOf xs) ⟨j, hlt⟩ fun p => argsOf xs ⟨j, hlt⟩ p + h * dx p) (fun _ => 0) 0 := by
      intro h
      have e := argsOf_set (xs := xs) (⟨j, hlt⟩ : Fin I.active.length) hlen (C61.dofsAt rk n I.boundary g ee.1 w (args w) + h • dx)
      simp only [toQoI, hk]
      rw [e, hx]
      rfl
    have e2 : (toQoI q I).jvp j g ((toQoI q I).derivative j g ee.2 t xs) dx =
        (single k ee.2).act ⟨j, hlt⟩ ((single k ee.2).store ⟨j, hlt⟩ t q (argsOf xs) fun _ => noDerivs) dx (fun _ => 0) 0 := by
      simp only [toQoI, hk, dif_pos hlt]
      rfl
    simp only [e1]
    rw [e2]
    exact hd

/-- **C107.**  After an evaluation that differentiates with respect to argument `w`, and any later calls that do not differentiate with respect to `w` again nor add integrals
that depend on it: the gradient vector is assembled, the action on a direction is the product with it, and both are the derivative of the quantity of interest. -/
theorem C107_gradient (n : ℕ → ℕ) (w : ℕ) (t : Tm) (args : ℕ → ℕ → ℝ) (m m1 m2 : QoI.Mem Tm (Buffer ℝ)) (hm : C61.Good m)
    (hI : ∀ l ∈ m.locals, ∀ p ∈ l.integrals, ∃ (q : Q) (I : UserIntegral Tm Q), p.1 = toQoI q I ∧ I.active.Nodup ∧ Scalar l.rank I ∧ RegularAt l.rank n q t args I)
    (h1 : QoI.evaluate n (some w) t args m = some m1) (cs : List (QoI.Call Tm (Buffer ℝ))) (hq : ∀ c ∈ cs, C61.Quiet w (m.locals.map QoI.Local.rank) c)
    (h2 : QoI.run n m1 cs = some m2) :
    ∃ G, QoI.assemble w m2 = some G ∧ ∀ dx, (∃ m3, QoI.action n w dx m2 = some (m3, ∑ c ∈ range (n w), G c * dx c)) ∧
      HasDerivAt (fun h : ℝ => C61.quantity n m.locals t (Function.update args w (args w + h • dx))) (∑ c ∈ range (n w), G c * dx c) 0 := by
  refine C61.C61_pointwise n w t args m m1 m2 hm (fun l hl p hp => ?_) h1 cs hq h2
  obtain ⟨q, I, e, hnd, hs, hreg⟩ := hI l hl p hp
  rw [e]
  exact ⟨hnd, fun _ => ⟨C107_differentiates l.rank n q w t args I hs hreg, C107_row l.rank q I hs⟩⟩

/-! ### Example

C61's two processors; `∫ κ T` over the triangle of each and the heat `∫ κ (T - 20)` through the boundary edges of the first. -/

def exF : QFun 2 (fun _ => 1) 2 Empty 1 := { C104.exQ with flux := none }

noncomputable def exTri : Kernel ℝ Unit 2 :=
  domainKernel .two exF (fun _ => C104.exJ.transpose) (fun _ _ _ => Empty.elim) (qoi 1 (qoiSum 1 fun _ => 1 / 2)) (fun _ => simplex C51.tri) [0]
noncomputable def exEdges : Kernel ℝ Unit 2 :=
  faceKernel .two C104.exFace (fun _ _ j => if j = 0 then 3 else 4) (fun _ _ _ => Empty.elim) (qoi 1 (qoiSum 1 fun _ => 1)) (fun _ => segmentElem C105.exRule) [1, 0]

noncomputable def exI : UserIntegral ℝ Unit := ⟨false, [0, 1], fun g => if g = 2 then some exTri else none⟩
noncomputable def exB : UserIntegral ℝ Unit := ⟨true, [0, 1], fun g => if g = 1 then some exEdges else none⟩

noncomputable def exMem : QoI.Mem ℝ (Buffer ℝ) :=
  ⟨[⟨C61.exRank 0, [(toQoI () exI, fun _ _ _ => none), (toQoI () exB, fun _ _ _ => none)]⟩, ⟨C61.exRank 1, [(toQoI () exI, fun _ _ _ => none)]⟩], 0⟩

theorem exTri_written : Written exTri :=
  Written.domain .two exF (fun _ => C104.exJ) (fun _ _ _ => Empty.elim) (qoi 1 (qoiSum 1 fun _ => 1 / 2)) (fun _ => simplex C51.tri) [0] (Or.inr rfl) (fun _ => rfl)
    ⟨⟨_, _, _, (C51_qoi 1 fun _ => (1 / 2 : ℝ)).1⟩, fun _ => ⟨_, _, (C51_simplex C51.tri).1⟩, one_pos, by simp [domainKernel, qoi], by simp [domainKernel, qoi]⟩

theorem exEdges_written : Written exEdges :=
  Written.face .two C104.exFace (fun _ _ j => if j = 0 then 3 else 4) (fun _ _ _ => Empty.elim) (qoi 1 (qoiSum 1 fun _ => 1)) (fun _ => segmentElem C105.exRule) [1, 0] (fun _ => rfl)
    ⟨⟨_, _, _, (C51_qoi 1 fun _ => (1 : ℝ)).1⟩, fun _ => ⟨_, _, (C51_segment C105.exRule).1⟩, one_pos, by simp [faceKernel, qoi], by simp [faceKernel, qoi]⟩

theorem exI_scalar (r : ℕ) : Scalar (C61.exRank r) exI := by
  intro g k h
  dsimp only [exI] at h
  split at h
  · rename_i hg
    obtain rfl := Option.some.inj h
    subst hg
    exact ⟨exTri_written, rfl, rfl, fun a => ⟨C53.nodal 3 [[0, 1, 2]], rfl, by fin_cases a <;> rfl, rfl⟩⟩
  · cases h

theorem exB_scalar (r : ℕ) : Scalar (C61.exRank r) exB := by
  intro g k h
  dsimp only [exB] at h
  split at h
  · rename_i hg
    obtain rfl := Option.some.inj h
    subst hg
    exact ⟨exEdges_written, rfl, rfl, fun a => ⟨C53.nodal 2 [[0, 1], [3, 4]], rfl, by fin_cases a <;> rfl, rfl⟩⟩
  · cases h

theorem exI_regular (rk : QoI.Rank) (n : ℕ → ℕ) (t : ℝ) (args : ℕ → ℕ → ℝ) : RegularAt rk n () t args exI := by
  intro g k h ee _
  dsimp only [exI] at h
  split at h
  · obtain rfl := Option.some.inj h
    exact Regular.domain .two exF (fun _ => C104.exJ) (fun _ _ _ => Empty.elim) (qoi 1 (qoiSum 1 fun _ => 1 / 2)) (fun _ => simplex C51.tri) [0] (Or.inr rfl) (fun _ => rfl)
      fun _ _ _ _ => ⟨by rw [C104.exJ_det]; norm_num, (C104.exGood C104.exJ _ _).1, fun _ h => by cases h⟩
  · cases h

theorem exB_regular (rk : QoI.Rank) (n : ℕ → ℕ) (t : ℝ) (args : ℕ → ℕ → ℝ) : RegularAt rk n () t args exB := by
  intro g k h ee _
  dsimp only [exB] at h
  split at h
  · obtain rfl := Option.some.inj h
    exact Regular.face .two C104.exFace (fun _ _ j => if j = 0 then 3 else 4) (fun _ _ _ => Empty.elim) (qoi 1 (qoiSum 1 fun _ => 1)) (fun _ => segmentElem C105.exRule) [0]
      (fun _ => rfl) fun _ _ _ _ _ => by simp [C104.exFace, C12.Good, C12.Good2]
  · cases h

theorem exI_fits (r : ℕ) : C61.Fits (C61.exRank r) (toQoI () exI) := by
  have hg : ∀ g ∈ exI.geoms, g = 2 := by
    intro g hg
    by_contra h
    simp [UserIntegral.geoms, exI, h] at hg
  refine ⟨fun g h => ?_, fun g h => ?_, fun g h => ?_⟩ <;> obtain rfl := hg g h
  · decide
  · simp [toQoI, exI, exTri, domainKernel, C61.exRank, C53.exSpace, Space.get, C53.exElements, C53.nodal, ElementRestriction.build]
  · simp [toQoI, exI, exTri, domainKernel]

theorem exB_fits (r : ℕ) : C61.Fits (C61.exRank r) (toQoI () exB) := by
  have hg : ∀ g ∈ exB.geoms, g = 1 := by
    intro g hg
    by_contra h
    simp [UserIntegral.geoms, exB, h] at hg
  refine ⟨fun g h => ?_, fun g h => ?_, fun g h => ?_⟩ <;> obtain rfl := hg g h
  · decide
  · simp [toQoI, exB, exEdges, faceKernel, C61.exRank, C53.exSpace, Space.get, C53.exBoundary, C53.nodal, ElementRestriction.build]
  · simp [toQoI, exB, exEdges, faceKernel]

theorem ex_good : C61.Good exMem := by
  intro l hl
  simp only [exMem, List.mem_cons, List.not_mem_nil, or_false] at hl
  rcases hl with rfl | rfl
  · refine ⟨C61.ex_rank 0, fun p hp => ?_⟩
    simp only [List.mem_cons, List.not_mem_nil, or_false] at hp
    rcases hp with rfl | rfl
    · exact exI_fits 0
    · exact exB_fits 0
  · refine ⟨C61.ex_rank 1, fun p hp => ?_⟩
    simp only [List.mem_cons, List.not_mem_nil, or_false] at hp
    rcases hp with rfl
    exact exI_fits 1

/-- The sensitivity to the temperature (`w = 0`) or the conductivity (`w = 1`). -/
example (w : ℕ) (t : ℝ) (args : ℕ → ℕ → ℝ) : ∃ m1 G, QoI.evaluate (fun _ => 10) (some w) t args exMem = some m1 ∧ QoI.assemble w m1 = some G ∧ ∀ dx,
    HasDerivAt (fun h : ℝ => C61.quantity (fun _ => 10) exMem.locals t (Function.update args w (args w + h • dx))) (∑ c ∈ range 10, G c * dx c) 0 := by
  obtain ⟨m1, h1, -⟩ := C61.C61_value (fun _ => 10) (some w) t args exMem ex_good
  obtain ⟨G, g1, g2⟩ := C107_gradient (Q := Unit) (fun _ => 10) w t args exMem m1 m1 ex_good (by
    intro l hl p hp
    simp only [exMem, List.mem_cons, List.not_mem_nil, or_false] at hl
    rcases hl with rfl | rfl <;> simp only [List.mem_cons, List.not_mem_nil, or_false] at hp
    · rcases hp with rfl | rfl
      · exact ⟨(), exI, rfl, by simp [exI], exI_scalar 0, exI_regular _ _ _ _⟩
      · exact ⟨(), exB, rfl, by simp [exB], exB_scalar 0, exB_regular _ _ _ _⟩
    · rcases hp with rfl
      exact ⟨(), exI, rfl, by simp [exI], exI_scalar 1, exI_regular _ _ _ _⟩) h1 [] (by simp) rfl
  exact ⟨m1, G, h1, g1, fun dx => (g2 dx).2⟩

/-- Heat through an edge at temperature 22 and conductivity 3: `5 * 3 * 2`. -/
example : (single exEdges 1).run none 0 () (fun a _ => if a = 0 then 22 else 3) (fun _ => 0) 0 = 30 := by
  rw [exEdges, C107_face_value (Tm := ℝ) (Q := Unit) .two C104.exFace _ _ (qoi 1 (qoiSum 1 fun _ => (1 : ℝ))) _ _ (C51_qoi 1 fun _ => (1 : ℝ)).1 rfl (by simp [qoi])]
  have e : area .two (fun _ j => if j = 0 then (3 : ℝ) else 4) = 5 := by
    have e' : Tensor.sqNormV (crossFace2 fun j => if j = 0 then (3 : ℝ) else 4) = 5 ^ 2 := by
      simp [Tensor.sqNormV_eq, crossFace2, Fin.sum_univ_two]
      norm_num
    simp only [area, Transform.norm]
    rw [e', Real.sqrt_sq (by norm_num)]
  simp only [e]
  have e2 : List.range 2 = [0, 1] := rfl
  simp [e2, qoi, segmentElem, C105.exRule, C104.exFace, C12.plain, faceReads, Num.std2, faceKernel, Kernel.fields, interpolate, SF.sumTo, SF.Rule.B]
  norm_num

end Serac.C107
