import Verif.Model.UserFunctional
import Verif.Props.C52
import Verif.Props.C104
import Mathlib.Analysis.Calculus.Deriv.Prod
/-!
# C105: a `Functional` made of user-written integrals

Spec.  `Written` says that a kernel is made of a user's function on elements that interpolate and integrate by shape functions; `Regular` that at the given element values the
Jacobians are invertible and the user's function is differentiable.  The theorems say: an entry of an integral's element vector is the weighted sum over the points of the user's
transformed source and flux; and, with no assumption on kernels left, the action of a gradient object of a `Functional` is the derivative of the vector it returns.
-/

namespace Serac.C105
open Serac.Num Serac.Kernels Serac.Transform Serac.AutoDiff Serac.UserFn Finset
open Serac.FnCalls (DType Integral Ops Mem Call evaluate action)
open Serac.C12 (plain Good C12_value)
open Serac.C51 (Trial Test IsDerivativeAt derivative_at weigh integrate_one fold_add eval_at)
open Serac.C104 (GoodAt specSource specFlux faceReads C104_derivative C104_face_derivative)

variable {Tm Q : Type} {A : ℕ}

/-! ### Spec -/

/-- The elements are given by shape functions. -/
structure Elements (k : Kernel Tm Q A) : Prop where
  test : ∃ phi dphi wt, Test k.test phi dphi wt
  trial : ∀ a, ∃ phi dphi, Trial (k.trial a) phi dphi
  components : 0 < k.c
  dim : 0 < k.test.dim
  ndof : 0 < k.test.ndof

/-- A kernel made of a user's function.  Trial elements have the dimension of the geometry, the test element too if there is a flux. -/
inductive Written : Kernel Tm Q A → Prop
  | domain {κ : Type} {m : Fin A → ℕ} {c : ℕ} (d : Dim) (f : QFun A m d.n κ c) (J : ℕ → Matrix (Fin d.n) (Fin d.n) ℝ) (data : Tm → Q → ℕ → κ → ℝ) (test : Elem ℝ)
      (trial : Fin A → Elem ℝ) (elements : List ℕ) (hd : test.dim = d.n ∨ f.flux = none) (hd' : ∀ a, (trial a).dim = d.n)
      (he : Elements (domainKernel d f (fun p => (J p).transpose) data test trial elements)) :
      Written (domainKernel d f (fun p => (J p).transpose) data test trial elements)
  | face {κ : Type} {m : Fin A → ℕ} {c : ℕ} (d : Dim) (f : Fin c → Expr (Input A m (faceDim d) κ)) (jac : ℕ → Fin (faceDim d) → Fin d.n → ℝ)
      (data : Tm → Q → ℕ → κ → ℝ) (test : Elem ℝ) (trial : Fin A → Elem ℝ) (elements : List ℕ) (hd' : ∀ a, (trial a).dim = faceDim d)
      (he : Elements (faceKernel d f jac data test trial elements)) : Written (faceKernel d f jac data test trial elements)

/-- At these element values the Jacobians are invertible and the user's function is differentiable. -/
inductive Regular (t : Tm) (q : Q) (Us : Fin A → ℕ → ℝ) : Kernel Tm Q A → Prop
  | domain {κ : Type} {m : Fin A → ℕ} {c : ℕ} (d : Dim) (f : QFun A m d.n κ c) (J : ℕ → Matrix (Fin d.n) (Fin d.n) ℝ) (data : Tm → Q → ℕ → κ → ℝ) (test : Elem ℝ)
      (trial : Fin A → Elem ℝ) (elements : List ℕ) (hd : test.dim = d.n ∨ f.flux = none) (hd' : ∀ a, (trial a).dim = d.n)
      (hg : ∀ ee ∈ elements.zipIdx, ∀ P < test.npts, (J (ee.2 * test.npts + P)).det ≠ 0 ∧ GoodAt f (J (ee.2 * test.npts + P)) (data t q (ee.2 * test.npts + P))
        ((domainKernel d f (fun p => (J p).transpose) data test trial elements).fields Us ee.1 P)) :
      Regular t q Us (domainKernel d f (fun p => (J p).transpose) data test trial elements)
  | face {κ : Type} {m : Fin A → ℕ} {c : ℕ} (d : Dim) (f : Fin c → Expr (Input A m (faceDim d) κ)) (jac : ℕ → Fin (faceDim d) → Fin d.n → ℝ)
      (data : Tm → Q → ℕ → κ → ℝ) (test : Elem ℝ) (trial : Fin A → Elem ℝ) (elements : List ℕ) (hd' : ∀ a, (trial a).dim = faceDim d)
      (hg : ∀ ee ∈ elements.zipIdx, ∀ P < test.npts, ∀ i, Good (faceReads (data t q (ee.2 * test.npts + P))
        ((faceKernel d f jac data test trial elements).fields Us ee.1 P)) (f i)) : Regular t q Us (faceKernel d f jac data test trial elements)

/-! ### One kernel -/

theorem getD_zipIdx {l : List ℕ} {ee : ℕ × ℕ} (h : ee ∈ l.zipIdx) : l.getD ee.2 0 = ee.1 := by
  have := List.mem_zipIdx_iff_getElem?.1 (show (ee.1, ee.2) ∈ l.zipIdx from h)
  simp [List.getD, this]

theorem fields_update (k : Kernel Tm Q A) (Us : Fin A → ℕ → ℝ) (a : Fin A) (U : ℕ → ℝ) (e P : ℕ) :
    k.fields (Function.update Us a U) e P = Function.update (k.fields Us e P) a ((interpolate (k.trial a) fun p => U (e * (k.m a * (k.trial a).ndof) + p)).value P,
      (interpolate (k.trial a) fun p => U (e * (k.m a * (k.trial a).ndof) + p)).grad P) := by
  funext b
  by_cases h : b = a
  · subst h; simp [Kernel.fields]
  · simp [Kernel.fields, h]

/-- The residual in closed form. -/
theorem run_at (k : Kernel Tm Q A) {phi dphi wt} (h : Test k.test phi dphi wt) (hc : 0 < k.c) (hd : 0 < k.test.dim) (w : Option (Fin A)) (t : Tm) (q : Q)
    (Us : Fin A → ℕ → ℝ) (r : ℕ → ℝ) (el s : ℕ) (hs : s < k.c * k.test.ndof) :
    k.run w t q Us r (el * (k.c * k.test.ndof) + s) = r (el * (k.c * k.test.ndof) + s) +
      (k.elements.zipIdx.map fun ee => if ee.1 = el then
        weigh k.test phi dphi wt (fun P => if k.zs then 0 else (k.point w t q (ee.2 * k.test.npts + P) (k.fields Us ee.1 P)).values.1 (s / k.test.ndof))
          (fun P l => if k.zf then 0 else (k.point w t q (ee.2 * k.test.npts + P) (k.fields Us ee.1 P)).values.2 (s / k.test.ndof) l) (s % k.test.ndof) else 0).sum := by
  unfold Kernel.run
  refine fold_add _ _ _ _ ?_ _
  intro s ee _
  rw [integrate_one h k.c hc hd _ _ _ _ _ _ hs]
  congr 1
  by_cases he : ee.1 = el
  · rw [if_pos he, if_pos he]
    unfold weigh
    refine sum_congr rfl fun P _ => ?_
    beta_reduce
    congr 2
    · cases k.zs <;> simp [nonzero, Flat.read]
    · refine sum_congr rfl fun l hl => ?_
      cases k.zf
      · simp [nonzero, Flat.read, C42.div_flat _ (mem_range.1 hl), C42.mod_flat _ (mem_range.1 hl)]
      · simp [nonzero, Flat.read]
  · rw [if_neg he, if_neg he]

/-- The other arguments at point `p`. -/
def base (k : Kernel Tm Q A) (Us : Fin A → ℕ → ℝ) (p : ℕ) : Fin A → Field := k.fields Us (k.elements.getD (p / k.test.npts) 0) (p % k.test.npts)

theorem base_at (k : Kernel Tm Q A) (Us : Fin A → ℕ → ℝ) (ee : ℕ × ℕ) (he : ee ∈ k.elements.zipIdx) (P : ℕ) (hP : P < k.test.npts) :
    base k Us (ee.2 * k.test.npts + P) = k.fields Us ee.1 P := by
  unfold base
  rw [C42.div_flat _ hP, C42.mod_flat _ hP, getD_zipIdx he]

/-- As functions of one argument, the kernels are those of C51. -/
def oneFn (k : Kernel Tm Q A) (w : Option (Fin A)) (a : Fin A) (t : Tm) (q : Q) (Us : Fin A → ℕ → ℝ) : PointFn ℝ := fun p v g =>
  (k.point w t q p (Function.update (base k Us p) a (v, g))).values
def oneGrad (k : Kernel Tm Q A) (a : Fin A) (t : Tm) (q : Q) (Us : Fin A → ℕ → ℝ) : ℕ → (ℕ → ℝ) → (ℕ → ℕ → ℝ) → Deriv ℝ := fun p v g =>
  (k.point (some a) t q p (Function.update (base k Us p) a (v, g))).derivs

theorem run_eq (k : Kernel Tm Q A) (hE : Elements k) (w : Option (Fin A)) (a : Fin A) (t : Tm) (q : Q) (Us : Fin A → ℕ → ℝ) (U r : ℕ → ℝ) (el s : ℕ)
    (hs : s < k.c * k.test.ndof) :
    k.run w t q (Function.update Us a U) r (el * (k.c * k.test.ndof) + s) =
      evalKernel k.test (k.trial a) k.c (k.m a) k.zs k.zf (oneFn k w a t q Us) k.elements U r (el * (k.c * k.test.ndof) + s) := by
  obtain ⟨phi, dphi, wt, h⟩ := hE.test
  rw [run_at k h hE.components hE.dim w t q _ r el s hs, eval_at h k.c (k.m a) hE.components hE.dim k.zs k.zf _ k.elements U r el s hs]
  congr 2
  refine List.map_congr_left fun ee hee => ?_
  by_cases he : ee.1 = el
  · rw [if_pos he, if_pos he]
    unfold weigh
    refine sum_congr rfl fun P hP => ?_
    simp only [oneFn, base_at k Us ee hee P (mem_range.1 hP), fields_update]
  · rw [if_neg he, if_neg he]

theorem store_eq (k : Kernel Tm Q A) (a : Fin A) (t : Tm) (q : Q) (Us : Fin A → ℕ → ℝ) (old : Buffer ℝ) :
    k.store a t q Us old = evalDerivs k.test.npts (k.trial a) (k.m a) (oneGrad k a t q Us) k.elements (Us a) old := by
  unfold Kernel.store evalDerivs
  refine List.foldl_ext _ _ _ fun D ee hee => ?_
  unfold loop
  refine List.foldl_ext _ _ _ fun D P hP => ?_
  funext p
  by_cases h : p = ee.2 * k.test.npts + P
  · rw [if_pos h, if_pos h]
    subst h
    unfold oneGrad
    rw [base_at k Us ee hee P (List.mem_range.1 hP), ← fields_update, Function.update_eq_self]
  · rw [if_neg h, if_neg h]

/-- Stored derivatives at the points and states that occur. -/
theorem regular_at (k : Kernel Tm Q A) (t : Tm) (q : Q) (Us : Fin A → ℕ → ℝ) (h : Regular t q Us k) (a : Fin A) :
    (k.test.dim = (k.trial a).dim ∨ ((k.shape a).z10 && (k.shape a).z11) = true) ∧
    ∀ ee ∈ k.elements.zipIdx, ∀ P < k.test.npts, IsDerivativeAt (oneFn k none a t q Us) (oneGrad k a t q Us) k.zs k.zf (k.shape a) k.c (k.m a) k.test.dim (k.trial a).dim
      (ee.2 * k.test.npts + P) ((interpolate (k.trial a) fun p => Us a (ee.1 * (k.m a * (k.trial a).ndof) + p)).value P)
      ((interpolate (k.trial a) fun p => Us a (ee.1 * (k.m a * (k.trial a).ndof) + p)).grad P) := by
  cases h with
  | @domain κ m c d f J data test trial elements hd hd' hg =>
    refine ⟨?_, fun ee hee P hP => ?_⟩
    · rcases hd with e | e
      · exact Or.inl (e.trans (hd' a).symm)
      · exact Or.inr (by simp [domainKernel, QFun.shape, QFun.fluxKind, e, Kind.hasValue, Kind.hasGrad])
    · set k := domainKernel d f (fun p => (J p).transpose) data test trial elements with hk
      let Pt : Points A d κ := ⟨fun p => (J p).transpose, data t q, base k Us⟩
      have e1 : oneFn k none a t q Us = pointFn Pt f none a := by
        funext p v g
        change ((evalPoint d (J p).transpose none f (data t q p) (Function.update (base k Us p) a (v, g))).getD noOut).values = match
          evalPoint d (J p).transpose none f (data t q p) (Function.update (base k Us p) a (v, g)) with | none => noValues | some o => o.values
        cases evalPoint d (J p).transpose none f (data t q p) (Function.update (base k Us p) a (v, g)) <;> rfl
      have e2 : oneGrad k a t q Us = pointGrad Pt f a := by
        funext p v g
        change ((evalPoint d (J p).transpose (some a) f (data t q p) (Function.update (base k Us p) a (v, g))).getD noOut).derivs = match
          evalPoint d (J p).transpose (some a) f (data t q p) (Function.update (base k Us p) a (v, g)) with | none => noDerivs | some o => o.derivs
        cases evalPoint d (J p).transpose (some a) f (data t q p) (Function.update (base k Us p) a (v, g)) <;> rfl
      rw [e1, e2, show (k.trial a).dim = d.n from hd' a]
      refine C104_derivative Pt f none a _ (J _) rfl (hg ee hee P hP).1 _ _ ?_ _ hd
      have e3 := base_at k Us ee hee P hP
      have e4 : Function.update (Pt.args (ee.2 * k.test.npts + P)) a ((interpolate (k.trial a) fun p => Us a (ee.1 * (k.m a * (k.trial a).ndof) + p)).value P,
          (interpolate (k.trial a) fun p => Us a (ee.1 * (k.m a * (k.trial a).ndof) + p)).grad P) = k.fields Us ee.1 P := by
        change Function.update (base k Us _) a _ = _
        rw [e3, ← fields_update, Function.update_eq_self]
      exact e4 ▸ (hg ee hee P hP).2
  | @face κ m c d f jac data test trial elements hd' hg =>
    refine ⟨Or.inr (by simp [faceKernel, faceShape]), fun ee hee P hP => ?_⟩
    set k := faceKernel d f jac data test trial elements with hk
    let Pt : FacePoints A d κ := ⟨jac, data t q, base k Us⟩
    rw [show oneFn k none a t q Us = facePointFn Pt f none a from rfl, show oneGrad k a t q Us = facePointGrad Pt f a from rfl, show (k.trial a).dim = faceDim d from hd' a]
    refine C104_face_derivative Pt f none a _ _ _ ?_ _
    have e3 := base_at k Us ee hee P hP
    have e4 : Function.update (Pt.args (ee.2 * k.test.npts + P)) a ((interpolate (k.trial a) fun p => Us a (ee.1 * (k.m a * (k.trial a).ndof) + p)).value P,
        (interpolate (k.trial a) fun p => Us a (ee.1 * (k.m a * (k.trial a).ndof) + p)).grad P) = k.fields Us ee.1 P := by
      change Function.update (base k Us _) a _ = _
      rw [e3, ← fields_update, Function.update_eq_self]
    exact e4 ▸ hg ee hee P hP

/-- The values do not depend on what is differentiated. -/
theorem point_values (k : Kernel Tm Q A) (h : Written k) (w : Option (Fin A)) (t : Tm) (q : Q) (p : ℕ) (u : Fin A → Field) :
    (k.point w t q p u).values = (k.point none t q p u).values := by
  cases h with
  | @domain κ m c d f J data test trial elements hd hd' he =>
    simp only [domainKernel, evalPoint]
    cases inv d fun row col => (J p).transpose col row with
    | none => rfl
    | some Ji =>
      cases inv d fun row col => (J p).transpose row col with
      | none => rfl
      | some JTi =>
        simp only [Option.bind_some, Option.map_some, Option.getD_some, Out.values]
        have hin : (fun i => (AutoDiff.inputs (m := m) w Ji (data t q p) u i).value) = fun i => (AutoDiff.inputs (m := m) none Ji (data t q p) u i).value := by
          funext i
          cases i with
          | data k => rfl
          | val a j => simp only [AutoDiff.inputs, C104.promote_value]
          | der a j l => simp only [AutoDiff.inputs, C104.dotNum_value, C104.promote_value]
        refine Prod.ext (funext fun i => ?_) (funext fun i => funext fun l => ?_)
        · simp only [outSource]
          cases f.source with
          | none => rfl
          | some s =>
            dsimp only
            split
            · rw [C104.mul_value, C104.mul_value, C12_value, C12_value, hin]
            · rfl
        · simp only [outFlux]
          cases f.flux with
          | none => rfl
          | some s =>
            dsimp only
            split
            · simp only [C104.mul_value, C104.dotNum_value, C12_value, hin]
            · rfl
  | face d f jac data test trial elements hd' he =>
    simp only [faceKernel, Out.values]
    refine Prod.ext (funext fun i => ?_) rfl
    dsimp only
    split
    · rw [C104.mul_value, C104.mul_value, C12_value, C12_value, C104.faceInputs_value, C104.faceInputs_value]
    · rfl

theorem run_values (k : Kernel Tm Q A) (h : Written k) (w : Option (Fin A)) (t : Tm) (q : Q) (Us : Fin A → ℕ → ℝ) (r : ℕ → ℝ) :
    k.run w t q Us r = k.run none t q Us r := by
  unfold Kernel.run
  simp only [point_values k h w]

theorem written_elements (k : Kernel Tm Q A) (h : Written k) : Elements k := by
  cases h with
  | domain _ _ _ _ _ _ _ _ _ he => exact he
  | face _ _ _ _ _ _ _ _ he => exact he

/-- The action of one kernel is the derivative of its residual. -/
theorem run_derivative (k : Kernel Tm Q A) (hw : Written k) (t : Tm) (q : Q) (Us : Fin A → ℕ → ℝ) (h : Regular t q Us k) (a : Fin A) (dU r : ℕ → ℝ) (old : Buffer ℝ) (p : ℕ) :
    HasDerivAt (fun s : ℝ => k.run none t q (Function.update Us a fun p => Us a p + s * dU p) r p) (k.act a (k.store a t q Us old) dU (fun _ => 0) p) 0 := by
  have hE := written_elements k hw
  obtain ⟨phi, dphi, wt, h1⟩ := hE.test
  obtain ⟨phi', dphi', h2⟩ := hE.trial a
  obtain ⟨hz, hq⟩ := regular_at k t q Us h a
  have hn : 0 < k.c * k.test.ndof := Nat.mul_pos hE.components hE.ndof
  have hp : p = p / (k.c * k.test.ndof) * (k.c * k.test.ndof) + p % (k.c * k.test.ndof) := (Nat.div_add_mod' _ _).symm
  have hs := Nat.mod_lt p hn
  generalize p / (k.c * k.test.ndof) = el at hp
  generalize p % (k.c * k.test.ndof) = s at hp hs
  subst hp
  simp only [run_eq k hE none a t q Us _ r el s hs]
  unfold Kernel.act
  rw [store_eq]
  exact derivative_at h1 h2 k.c (k.m a) hE.components hE.dim k.zs k.zf (k.shape a) hz _ _ k.elements (Us a) dU r hq old el s hs

/-- **C105, values.**  An entry of the element vector of a domain integral: over the element's points, weight times the user's source times the shape function plus the user's
flux times the gradient of the shape function, both transformed with the Jacobian of the point. -/
theorem C105_value {κ : Type} {m : Fin A → ℕ} {c : ℕ} (d : Dim) (f : QFun A m d.n κ c) (J : ℕ → Matrix (Fin d.n) (Fin d.n) ℝ) (data : Tm → Q → ℕ → κ → ℝ) (test : Elem ℝ)
    (trial : Fin A → Elem ℝ) (elements : List ℕ) {phi dphi wt} (h : Test test phi dphi wt) (hc : 0 < c) (hd : 0 < test.dim) (w : Option (Fin A)) (t : Tm) (q : Q)
    (Us : Fin A → ℕ → ℝ) (hJ : ∀ ee ∈ elements.zipIdx, ∀ P < test.npts, (J (ee.2 * test.npts + P)).det ≠ 0) (el s : ℕ) (hs : s < c * test.ndof) :
    (domainKernel d f (fun p => (J p).transpose) data test trial elements).run w t q Us (fun _ => 0) (el * (c * test.ndof) + s) =
      (elements.zipIdx.map fun ee => if ee.1 = el then ∑ P ∈ range test.npts, wt P *
        (specSource f (J (ee.2 * test.npts + P)) (data t q (ee.2 * test.npts + P))
            ((domainKernel d f (fun p => (J p).transpose) data test trial elements).fields Us ee.1 P) (s / test.ndof) * phi P (s % test.ndof) +
          ∑ l ∈ range test.dim, specFlux f (J (ee.2 * test.npts + P)) (data t q (ee.2 * test.npts + P))
            ((domainKernel d f (fun p => (J p).transpose) data test trial elements).fields Us ee.1 P) (s / test.ndof) l * dphi P (s % test.ndof) l) else 0).sum := by
  set k := domainKernel d f (fun p => (J p).transpose) data test trial elements with hk
  refine (run_at k h hc hd w t q Us (fun _ => 0) el s hs).trans ?_
  rw [zero_add]
  refine congrArg List.sum (List.map_congr_left fun ee hee => ?_)
  by_cases he : ee.1 = el
  · rw [if_pos he, if_pos he]
    unfold weigh
    refine sum_congr rfl fun P hP => ?_
    have e := C104.evalPoint_eq d (J (ee.2 * test.npts + P)).transpose _ rfl (hJ ee hee P (mem_range.1 hP)) w f (data t q (ee.2 * test.npts + P)) (k.fields Us ee.1 P)
    have e' : k.point w t q (ee.2 * test.npts + P) (k.fields Us ee.1 P) = _ := congrArg (fun o => Option.getD o noOut) e
    have v1 : ∀ i, (k.point w t q (ee.2 * test.npts + P) (k.fields Us ee.1 P)).values.1 i = specSource f (J (ee.2 * test.npts + P)) (data t q (ee.2 * test.npts + P)) (k.fields Us ee.1 P) i := by
      intro i; rw [e']; exact C104.outSource_value f w _ _ _ i
    have v2 : ∀ i l, (k.point w t q (ee.2 * test.npts + P) (k.fields Us ee.1 P)).values.2 i l = specFlux f (J (ee.2 * test.npts + P)) (data t q (ee.2 * test.npts + P)) (k.fields Us ee.1 P) i l := by
      intro i l; rw [e']; exact C104.outFlux_value f _ w _ _ _ i l
    have z1 : k.zs = true → ∀ i, specSource f (J (ee.2 * test.npts + P)) (data t q (ee.2 * test.npts + P)) (k.fields Us ee.1 P) i = 0 := by
      intro hz i
      have : f.source = none := by simpa [hk, domainKernel] using hz
      simp [specSource, this]
    have z2 : k.zf = true → ∀ i l, specFlux f (J (ee.2 * test.npts + P)) (data t q (ee.2 * test.npts + P)) (k.fields Us ee.1 P) i l = 0 := by
      intro hz i l
      have : f.flux = none := by simpa [hk, domainKernel] using hz
      simp [specFlux, this]
    change wt P * ((if k.zs = true then 0 else (k.point w t q (ee.2 * test.npts + P) (k.fields Us ee.1 P)).values.1 (s / test.ndof)) * phi P (s % test.ndof) +
      ∑ l ∈ range test.dim, (if k.zf = true then 0 else (k.point w t q (ee.2 * test.npts + P) (k.fields Us ee.1 P)).values.2 (s / test.ndof) l) * dphi P (s % test.ndof) l) = _
    congr 2
    · rw [v1]; congr 1; split
      · rename_i hz; exact (z1 hz _).symm
      · rfl
    · refine sum_congr rfl fun l _ => ?_
      rw [v2]; congr 1; split
      · rename_i hz; exact (z2 hz _ _).symm
      · rfl
  · rw [if_neg he, if_neg he]

/-- **C105, values on faces**: weight times area times the user's function times the shape function. -/
theorem C105_face_value {κ : Type} {m : Fin A → ℕ} {c : ℕ} (d : Dim) (f : Fin c → Expr (Input A m (faceDim d) κ)) (jac : ℕ → Fin (faceDim d) → Fin d.n → ℝ)
    (data : Tm → Q → ℕ → κ → ℝ) (test : Elem ℝ) (trial : Fin A → Elem ℝ) (elements : List ℕ) {phi dphi wt} (h : Test test phi dphi wt) (hc : 0 < c) (hd : 0 < test.dim)
    (w : Option (Fin A)) (t : Tm) (q : Q) (Us : Fin A → ℕ → ℝ) (el : ℕ) (i : Fin c) (b : ℕ) (hb : b < test.ndof) :
    (faceKernel d f jac data test trial elements).run w t q Us (fun _ => 0) (el * (c * test.ndof) + (i.1 * test.ndof + b)) =
      (elements.zipIdx.map fun ee => if ee.1 = el then ∑ P ∈ range test.npts, wt P * (area d (jac (ee.2 * test.npts + P)) *
        plain (faceReads (data t q (ee.2 * test.npts + P)) ((faceKernel d f jac data test trial elements).fields Us ee.1 P)) (f i) * phi P b) else 0).sum := by
  set k := faceKernel d f jac data test trial elements with hk
  have hs : i.1 * test.ndof + b < c * test.ndof := calc
    _ < i.1 * test.ndof + test.ndof := by omega
    _ = (i.1 + 1) * test.ndof := by ring
    _ ≤ _ := Nat.mul_le_mul_right _ i.2
  refine (run_at k h hc hd w t q Us (fun _ => 0) el _ hs).trans ?_
  rw [zero_add]
  refine congrArg List.sum (List.map_congr_left fun ee hee => ?_)
  by_cases he : ee.1 = el
  · rw [if_pos he, if_pos he]
    unfold weigh
    refine sum_congr rfl fun P hP => ?_
    have hz : k.zs = false := rfl
    have hz' : k.zf = true := rfl
    have hn : k.test.ndof = test.ndof := rfl
    have v1 : (k.point w t q (ee.2 * k.test.npts + P) (k.fields Us ee.1 P)).values.1 i = area d (jac (ee.2 * test.npts + P)) *
        plain (faceReads (data t q (ee.2 * test.npts + P)) (k.fields Us ee.1 P)) (f i) := by
      change (if h : i.1 < c then ap2 .mul ((f ⟨i.1, h⟩).run (faceInputs w (data t q (ee.2 * test.npts + P)) (k.fields Us ee.1 P)))
        (.dbl (area d (jac (ee.2 * test.npts + P)))) else .dbl 0).value = _
      rw [dif_pos i.2, C104.mul_value, C12_value, C104.faceInputs_value, mul_comm]
    simp only [hz, hz', hn, C42.div_flat _ hb, C42.mod_flat _ hb, v1, if_true, zero_mul, sum_const_zero, add_zero, Bool.false_eq_true, if_false]
  · rw [if_neg he, if_neg he]

/-! ### Integrals -/

section
variable {G N : ℕ}

/-- An integral made of user-written kernels, no argument named twice. -/
structure User (I : Integral Tm (EVec G N) Q (Store G)) where
  type : DType
  active : List ℕ
  nodup : active.Nodup
  kernels : Fin G → Option (Kernel Tm Q active.length)
  next : Tm → List (EVec G N) → Q → Q
  eq : I = toIntegral type active kernels next
  written : ∀ g k, kernels g = some k → Written k

/-- Differentiable at the given element values. -/
def User.RegularAt {I : Integral Tm (EVec G N) Q (Store G)} (u : User I) (t : Tm) (xs : List (EVec G N)) (q : Q) : Prop :=
  ∀ g k, u.kernels g = some k → Regular t q (blocks _ g xs) k

/-- **C105, no interference.**  Values and material states do not depend on which argument is differentiated. -/
theorem C105_sound (I : Integral Tm (EVec G N) Q (Store G)) (u : User I) : C52.Sound I := by
  obtain ⟨type, active, -, kernels, next, rfl, hw⟩ := u
  refine ⟨fun i t xs q => ?_, fun _ _ _ _ _ => rfl, fun _ _ _ => rfl⟩
  funext g
  simp only [toIntegral]
  cases hk : kernels g with
  | none => rfl
  | some k =>
    dsimp only
    rw [run_values k (hw g k hk)]

theorem pad_line (x dx : Fin N → ℝ) (h : ℝ) : pad (x + h • dx) = fun p => pad x p + h * pad dx p := by
  funext p
  unfold pad
  split <;> simp

theorem blocks_set (A : ℕ) (g : Fin G) (xs : List (EVec G N)) (a : Fin A) (ha : a.1 < xs.length) (y : EVec G N) :
    blocks A g (xs.set a.1 y) = Function.update (blocks A g xs) a (pad (y g)) := by
  funext b
  unfold blocks
  by_cases h : b = a
  · subst h
    simp [List.getD, ha]
  · have : a.1 ≠ b.1 := fun e => h (Fin.ext e.symm)
    simp [List.getD, h, this]

/-- **C105, one integral.**  Where the user's functions are differentiable, the jacobian-vector product with the stored derivatives is the derivative of the integral's element
vector. -/
theorem C105_integral (I : Integral Tm (EVec G N) Q (Store G)) (u : User I) (i : ℕ) (hi : i < I.active.length) (t : Tm) (xs : List (EVec G N)) (q : Q)
    (h : u.RegularAt t xs q) : C52.DifferentiatesAt I i t xs q := by
  revert h
  obtain ⟨type, active, -, kernels, next, rfl, hw⟩ := u
  intro h x hx dx
  have hlen : i < xs.length := (List.getElem?_eq_some_iff.1 hx).1
  have hi' : i < active.length := hi
  refine hasDerivAt_pi.2 fun g => ?_
  simp only [toIntegral]
  cases hk : kernels g with
  | none => simpa using hasDerivAt_const (0 : ℝ) (0 : Fin N → ℝ)
  | some k =>
    dsimp only
    rw [dif_pos hi', dif_pos hi']
    refine hasDerivAt_pi.2 fun p => ?_
    have hb : ∀ s : ℝ, blocks active.length g (xs.set i (x + s • dx)) = Function.update (blocks active.length g xs) ⟨i, hi'⟩
        fun p => blocks active.length g xs ⟨i, hi'⟩ p + s * pad (dx g) p := by
      intro s
      rw [blocks_set active.length g xs ⟨i, hi'⟩ hlen]
      congr 1
      have : xs.getD i 0 = x := by simp [List.getD, hx]
      simp only [blocks, this]
      exact pad_line (x g) (dx g) s
    simp only [hb]
    exact run_derivative k (hw g k hk) t q _ (h g k hk) ⟨i, hi'⟩ (pad (dx g)) _ _ p

/-! ### The whole object -/

variable {T L : Type} [NormedAddCommGroup T] [NormedSpace ℝ T] [NormedAddCommGroup L] [NormedSpace ℝ L]

/-- **C105.**  A `Functional` of user-written integrals, after any calls, is evaluated at `t`, `args` with derivatives by argument `w`, where the user's functions are
differentiable; then any calls follow that neither differentiate with respect to `w` nor add integrals that depend on it.  The action of the gradient object of `w` is the
derivative of the residual at `t`, `args` and the material states of that evaluation. -/
theorem C105_gradient (ops : Ops T L (EVec G N)) (lin : C52.Linear ops) (w : ℕ) (t : Tm) (args : ℕ → T) (m m' : Mem Tm T L (EVec G N) Q (Store G))
    (user : ∀ I ∈ m.integrals, Nonempty (User I))
    (hreg : ∀ p ∈ m.integrals.zip (C52.states ops t args m.update m.integrals m.state), ∃ u : User p.1, u.RegularAt t (C52.inputs ops p.1 args) p.2)
    (ds : List (Call Tm T (EVec G N) Q (Store G))) (hs : ∀ c ∈ ds, C52.Call.Sound c) (hq : ∀ c ∈ ds, C52.Call.Quiet w c)
    (h : FnCalls.run ops (evaluate ops (some w) t args m) ds = some m') (dx : T) :
    ∃ m'' v, action ops w dx m' = some (m'', v) ∧
      HasDerivAt (fun x : ℝ => C52.residual ops (m.integrals.zip (C52.states ops t args m.update m.integrals m.state)) t
        (Function.update args w (args w + x • dx))) v 0 := by
  refine C52.C52_pointwise_partial ops lin w t args m m' (fun I hI => C105_sound I (user I hI).some) (fun p hp i hi => ?_) (fun I hI => ?_) ds hs hq h dx
  · obtain ⟨u, hu⟩ := hreg p hp
    exact C105_integral p.1 u i (List.getElem?_eq_some_iff.1 (C52.index_some hi)).1 t _ p.2 hu
  · obtain ⟨u⟩ := user I hI
    rw [u.eq]
    exact u.nodup

/-- **C105, in observable terms**: the derivative of the vector that evaluating the object returns. -/
theorem C105_observable (ops : Ops T L (EVec G N)) (lin : C52.Linear ops) (w : ℕ) (t : Tm) (args : ℕ → T) (m m' : Mem Tm T L (EVec G N) Q (Store G))
    (hu : m.update = false) (user : ∀ I ∈ m.integrals, ∃ u : User I, u.RegularAt t (C52.inputs ops I args) m.state)
    (ds : List (Call Tm T (EVec G N) Q (Store G))) (hs : ∀ c ∈ ds, C52.Call.Sound c) (hq : ∀ c ∈ ds, C52.Call.Quiet w c)
    (h : FnCalls.run ops (evaluate ops (some w) t args m) ds = some m') (dx : T) :
    ∃ m'' v, action ops w dx m' = some (m'', v) ∧
      HasDerivAt (fun x : ℝ => (evaluate ops none t (Function.update args w (args w + x • dx)) m).outputT) v 0 := by
  have hI : ∀ I ∈ m.integrals, C52.Sound I := fun I hI => C105_sound I (user I hI).choose
  have hst := C52.states_false ops t args m.integrals hI m.state
  obtain ⟨m'', v, h1, h2⟩ := C105_gradient ops lin w t args m m' (fun I hI => ⟨(user I hI).choose⟩) (fun p hp => by
    rw [hu, hst] at hp
    obtain ⟨I, hI', rfl⟩ := List.mem_map.1 hp
    exact user I hI') ds hs hq h dx
  refine ⟨m'', v, h1, ?_⟩
  rw [hu, hst] at h2
  simp only [(C52.C52_state ops lin.scatter none t _ m hI hu).2]
  exact h2

end

/-! ### Example: heat conduction on two triangles with convection on an edge -/

noncomputable def exRule : SF.Rule ℝ where
  n := 2
  q := 1
  N j x := if j = 0 then 1 - x else x
  dN j _ := if j = 0 then -1 else 1
  pt _ := 1 / 2
  wt _ := 1

/-- Temperature and conductivity on the elements (geometry 0): C104's conduction with reaction. -/
noncomputable def exDomain : Kernel ℝ Unit 2 :=
  domainKernel .two C104.exQ (fun _ => C104.exJ.transpose) (fun _ _ _ => Empty.elim) (simplex C51.tri) (fun _ => simplex C51.tri) [1, 0]
/-- and on the faces (geometry 1): C104's convection. -/
noncomputable def exFace : Kernel ℝ Unit 2 :=
  faceKernel .two C104.exFace (fun _ _ j => if j = 0 then 3 else 4) (fun _ _ _ => Empty.elim) (segmentElem exRule) (fun _ => segmentElem exRule) [0]

noncomputable def exI : Integral ℝ (EVec 2 6) Unit (Store 2) := toIntegral .elements [0, 1] (fun g => if g = 0 then some exDomain else none) fun _ _ q => q
noncomputable def exB : Integral ℝ (EVec 2 6) Unit (Store 2) := toIntegral .boundary [0, 1] (fun g => if g = 1 then some exFace else none) fun _ _ q => q

theorem exDomain_written : Written exDomain :=
  Written.domain .two C104.exQ (fun _ => C104.exJ) (fun _ _ _ => Empty.elim) (simplex C51.tri) (fun _ => simplex C51.tri) [1, 0] (Or.inl rfl) (fun _ => rfl)
    ⟨⟨_, _, _, (C51.C51_simplex C51.tri).2⟩, fun _ => ⟨_, _, (C51.C51_simplex C51.tri).1⟩, one_pos, by simp [domainKernel, simplex, C51.tri],
      by simp [domainKernel, simplex, C51.tri]⟩

theorem exFace_written : Written exFace :=
  Written.face .two C104.exFace (fun _ _ j => if j = 0 then 3 else 4) (fun _ _ _ => Empty.elim) (segmentElem exRule) (fun _ => segmentElem exRule) [0] (fun _ => rfl)
    ⟨⟨_, _, _, (C51.C51_segment exRule).2⟩, fun _ => ⟨_, _, (C51.C51_segment exRule).1⟩, one_pos, by simp [faceKernel, segmentElem],
      by simp [faceKernel, segmentElem, exRule]⟩

theorem exDomain_regular (t : ℝ) (q : Unit) (Us : Fin 2 → ℕ → ℝ) : Regular t q Us exDomain :=
  Regular.domain .two C104.exQ (fun _ => C104.exJ) (fun _ _ _ => Empty.elim) (simplex C51.tri) (fun _ => simplex C51.tri) [1, 0] (Or.inl rfl) (fun _ => rfl)
    fun _ _ _ _ => ⟨by rw [C104.exJ_det]; norm_num, C104.exGood _ _ _⟩

theorem exFace_regular (t : ℝ) (q : Unit) (Us : Fin 2 → ℕ → ℝ) : Regular t q Us exFace :=
  Regular.face .two C104.exFace (fun _ _ j => if j = 0 then 3 else 4) (fun _ _ _ => Empty.elim) (segmentElem exRule) (fun _ => segmentElem exRule) [0] (fun _ => rfl)
    fun _ _ _ _ _ => by simp [C104.exFace, Good, C12.Good2]

noncomputable def exUserI : User exI where
  type := .elements
  active := [0, 1]
  nodup := by simp
  kernels := fun g => if g = 0 then some exDomain else none
  next := fun _ _ q => q
  eq := rfl
  written g k h := by
    split at h
    · obtain rfl := Option.some.inj h; exact exDomain_written
    · cases h

noncomputable def exUserB : User exB where
  type := .boundary
  active := [0, 1]
  nodup := by simp
  kernels := fun g => if g = 1 then some exFace else none
  next := fun _ _ q => q
  eq := rfl
  written g k h := by
    split at h
    · obtain rfl := Option.some.inj h; exact exFace_written
    · cases h

/-- Discontinuous fields: true dofs, local dofs and element values are the same. -/
def exOps : Ops (EVec 2 6) (EVec 2 6) (EVec 2 6) := ⟨fun _ x => x, fun _ _ x => x, fun _ e l => l + e, fun l => l⟩

noncomputable def exLinear : C52.Linear exOps where
  P _ := ContinuousLinearMap.id ℝ _
  G _ _ := ContinuousLinearMap.id ℝ _
  S _ := ContinuousLinearMap.id ℝ _
  R := ContinuousLinearMap.id ℝ _
  hP _ _ := rfl
  hG _ _ _ := rfl
  hS _ _ _ := rfl
  hR _ := rfl

noncomputable def exMem : Mem ℝ (EVec 2 6) (EVec 2 6) (EVec 2 6) Unit (Store 2) :=
  { integrals := [exI, exB], update := false, state := (), inputL := fun _ => 0, inputE := fun _ _ => 0, outputL := 0, outputE := fun _ => 0, outputT := 0,
    buffer := fun _ _ => none }

/-- For every temperature and conductivity: the gradient with respect to either is the derivative of the residual. -/
example (w : ℕ) (t : ℝ) (args : ℕ → EVec 2 6) (dx : EVec 2 6) : ∃ m'' v, action exOps w dx (evaluate exOps (some w) t args exMem) = some (m'', v) ∧
    HasDerivAt (fun x : ℝ => (evaluate exOps none t (Function.update args w (args w + x • dx)) exMem).outputT) v 0 := by
  refine C105_observable exOps exLinear w t args exMem _ rfl (fun I hI => ?_) [] (by simp) (by simp) rfl dx
  simp only [exMem, List.mem_cons, List.not_mem_nil, or_false] at hI
  rcases hI with rfl | rfl
  · refine ⟨exUserI, fun g k h => ?_⟩
    dsimp only [exUserI] at h
    split at h
    · obtain rfl := Option.some.inj h; exact exDomain_regular _ _ _
    · cases h
  · refine ⟨exUserB, fun g k h => ?_⟩
    dsimp only [exUserB] at h
    split at h
    · obtain rfl := Option.some.inj h; exact exFace_regular _ _ _
    · cases h

/-- The convective residual at the first node of the edge, temperature 22 and conductivity 3: `5 * 3 * 2 / 2`. -/
example : exFace.run none 0 () (fun a _ => if a = 0 then 22 else 3) (fun _ => 0) 0 = 15 := by
  have h := C105_face_value (Tm := ℝ) (Q := Unit) .two C104.exFace (fun _ _ j => if j = 0 then 3 else 4) (fun _ _ _ => Empty.elim) (segmentElem exRule) (fun _ => segmentElem exRule) [0]
    (C51.C51_segment exRule).2 one_pos (by simp [segmentElem]) none 0 () (fun a _ => if a = 0 then 22 else 3) 0 0 0 (by simp [segmentElem, exRule])
  simp only [Fin.val_zero, zero_mul, zero_add] at h
  rw [exFace, h]
  have e : area .two (fun _ j => if j = 0 then (3 : ℝ) else 4) = 5 := by
    have e' : Tensor.sqNormV (crossFace2 fun j => if j = 0 then (3 : ℝ) else 4) = 5 ^ 2 := by
      simp [Tensor.sqNormV_eq, crossFace2, Fin.sum_univ_two]
      norm_num
    simp only [area, Transform.norm]
    rw [e', Real.sqrt_sq (by norm_num)]
  simp only [e]
  have e2 : List.range 2 = [0, 1] := rfl
  simp [e2, segmentElem, exRule, C104.exFace, plain, faceReads, std2, faceKernel, Kernel.fields, interpolate, SF.sumTo, SF.Rule.B]
  norm_num

end Serac.C105
