import Verif.Model.ElementKernels
import Verif.Props.C42
import Mathlib.Analysis.Calculus.Deriv.Add
import Mathlib.Analysis.Calculus.Deriv.Mul
import Mathlib.Analysis.Calculus.Deriv.Pow
import Mathlib.Data.Real.Basic
import Mathlib.Tactic.Linarith
/-!
# C51: element kernels and derivatives

Spec.  `Trial` and `Test` say what an element means: evaluation at the points is the sum over the nodes of nodal value times shape function, integration is the
weighted sum over the points of source times shape function plus flux times gradient.  With that, for arbitrary q-functions:

* the element matrix times a vector is the action of the gradient;
* the action of the gradient is the derivative of the element residual.
-/

namespace Serac.C51
open Serac.SF Serac.Kernels Serac.C42 Finset

variable {R : Type} [CommRing R]

/-! ### What elements are -/

/-- Evaluation is by shape functions `phi Q a`, `dphi Q a d` (point, node, direction), and so is the application of derivative blocks. -/
structure Trial (E : Elem R) (phi : ℕ → ℕ → R) (dphi : ℕ → ℕ → ℕ → R) : Prop where
  value : ∀ X Q, (E.interp X).value Q = ∑ a ∈ range E.ndof, X a * phi Q a
  grad : ∀ X Q d, (E.interp X).grad Q d = ∑ a ∈ range E.ndof, X a * dphi Q a d
  apply_value : ∀ J < E.ndof, ∀ d00 d01 d10 d11 Q, (E.apply J d00 d01 d10 d11).value Q = d00 Q * phi Q J + ∑ k ∈ range E.dim, d01 Q k * dphi Q J k
  apply_grad : ∀ J < E.ndof, ∀ d00 d01 d10 d11 Q i, (E.apply J d00 d01 d10 d11).grad Q i = d10 Q i * phi Q J + ∑ k ∈ range E.dim, d11 Q i k * dphi Q J k

/-- Integration is the weighted sum over the points. -/
def Test (E : Elem R) (phi : ℕ → ℕ → R) (dphi : ℕ → ℕ → ℕ → R) (wt : ℕ → R) : Prop := ∀ f, ∀ a < E.ndof,
  E.integ f a = ∑ Q ∈ range E.npts, wt Q * (f.value Q * phi Q a + ∑ k ∈ range E.dim, f.grad Q k * dphi Q a k)

/-! ### The elements of the library -/

def quadPhi (r : Rule R) (Q a : ℕ) : R := Quad.shape r (r.pt (Q % r.q)) (r.pt (Q / r.q)) a
def quadGrad (r : Rule R) (Q a k : ℕ) : R := Quad.shapeGrad r (r.pt (Q % r.q)) (r.pt (Q / r.q)) a k
def hexPhi (r : Rule R) (Q a : ℕ) : R := Hex.shape r (px r Q) (py r Q) (pz r Q) a
def hexGrad (r : Rule R) (Q a k : ℕ) : R := Hex.shapeGrad r (px r Q) (py r Q) (pz r Q) a k

theorem unit_sum {n j : ℕ} (hj : j < n) (g : ℕ → R) : ∑ a ∈ range n, unit j a * g a = g j := by
  simp [unit, hj]

/-- **C51, elements.**  Segments, triangles, tetrahedra, quadrilaterals and hexahedra of every order, with every rule. -/
theorem C51_quad (r : Rule R) : Trial (quad r) (quadPhi r) (quadGrad r) ∧ Test (quad r) (quadPhi r) (quadGrad r) fun Q => r.wt (Q % r.q) * r.wt (Q / r.q) := by
  have hg : ∀ X Q k, (Quad.interpolate r X).grad Q k = ∑ a ∈ range (r.n * r.n), X a * quadGrad r Q a k := by
    intro X Q k
    match k with
    | 0 => exact (C42_quad_interpolate r X Q).2 0 (by norm_num)
    | k + 1 => exact (C42_quad_interpolate r X Q).2 1 (by norm_num)
  have hv : ∀ X Q, (Quad.interpolate r X).value Q = ∑ a ∈ range (r.n * r.n), X a * quadPhi r Q a := fun X Q => (C42_quad_interpolate r X Q).1
  refine ⟨⟨hv, hg, ?_, ?_⟩, fun f a _ => C42_quad_integrate r f a⟩
  · intro J hJ d00 d01 d10 d11 Q
    have h := (C42_quad_column r J hJ d00 d01 d10 d11 Q).1
    simp only [hv, hg] at h
    simp only [unit_sum (show J < r.n * r.n from hJ)] at h
    exact h
  · intro J hJ d00 d01 d10 d11 Q i
    have h := (C42_quad_column r J hJ d00 d01 d10 d11 Q).2 i
    simp only [hv, hg] at h
    simp only [unit_sum (show J < r.n * r.n from hJ)] at h
    exact h

theorem C51_hex (r : Rule R) : Trial (hex r) (hexPhi r) (hexGrad r) ∧ Test (hex r) (hexPhi r) (hexGrad r) (wt3 r) := by
  have hg : ∀ X Q k, (Hex.interpolate r X).grad Q k = ∑ a ∈ range (r.n * r.n * r.n), X a * hexGrad r Q a k := by
    intro X Q k
    match k with
    | 0 => exact (C42_hex_interpolate r X Q).2 0 (by norm_num)
    | 1 => exact (C42_hex_interpolate r X Q).2 1 (by norm_num)
    | k + 2 => exact (C42_hex_interpolate r X Q).2 2 (by norm_num)
  have hv : ∀ X Q, (Hex.interpolate r X).value Q = ∑ a ∈ range (r.n * r.n * r.n), X a * hexPhi r Q a := fun X Q => (C42_hex_interpolate r X Q).1
  refine ⟨⟨hv, hg, ?_, ?_⟩, fun f a _ => C42_hex_integrate r f a⟩
  · intro J hJ d00 d01 d10 d11 Q
    have h := (C42_hex_column r J hJ d00 d01 d10 d11 Q).1
    simp only [hv, hg] at h
    simp only [unit_sum (show J < r.n * r.n * r.n from hJ)] at h
    exact h
  · intro J hJ d00 d01 d10 d11 Q i
    have h := (C42_hex_column r J hJ d00 d01 d10 d11 Q).2 i
    simp only [hv, hg] at h
    simp only [unit_sum (show J < r.n * r.n * r.n from hJ)] at h
    exact h

theorem C51_segment (r : Rule R) : Trial (segmentElem r) (fun Q a => r.N a (r.pt Q)) (fun Q a _ => r.dN a (r.pt Q)) ∧
    Test (segmentElem r) (fun Q a => r.N a (r.pt Q)) (fun Q a _ => r.dN a (r.pt Q)) r.wt := by
  refine ⟨⟨?_, ?_, ?_, ?_⟩, ?_⟩
  · intro X Q
    simp only [segmentElem, sumTo_eq, Rule.B]
    exact sum_congr rfl fun a _ => mul_comm _ _
  · intro X Q d
    simp only [segmentElem, sumTo_eq, Rule.G]
    exact sum_congr rfl fun a _ => mul_comm _ _
  · intro J _ d00 d01 d10 d11 Q
    simp [segmentElem, Rule.B, Rule.G]
  · intro J _ d00 d01 d10 d11 Q i
    simp [segmentElem, Rule.B, Rule.G]
  · intro f a _
    simp only [segmentElem, sumTo_eq, Rule.Bw, Rule.Gw, sum_range_one]
    rw [← sum_add_distrib]
    exact sum_congr rfl fun Q _ => by ring

theorem C51_simplex {P : Type} (s : Simplex R P) : Trial (simplex s) (fun Q a => s.phi (s.xi Q) a) (fun Q a k => s.dphi (s.xi Q) a k) ∧
    Test (simplex s) (fun Q a => s.phi (s.xi Q) a) (fun Q a k => s.dphi (s.xi Q) a k) s.wt := by
  refine ⟨⟨?_, ?_, ?_, ?_⟩, ?_⟩
  · intro X Q; simp only [simplex, sumTo_eq]
  · intro X Q d; simp only [simplex, sumTo_eq]
  · intro J _ d00 d01 d10 d11 Q; simp only [simplex, sumTo_eq]
  · intro J _ d00 d01 d10 d11 Q i; simp only [simplex, sumTo_eq]
  · intro f a _
    simp only [simplex, sumTo_eq]
    exact sum_congr rfl fun Q _ => mul_comm _ _

/-- **C51, quantities of interest**: the one test function is the constant one. -/
theorem C51_qoi (q : ℕ) (wts : ℕ → R) :
    Test (qoi q (qoiSum q wts)) (fun _ _ => 1) (fun _ _ _ => 0) wts ∧
    Test (qoi (q * q) (qoiSquare q wts)) (fun _ _ => 1) (fun _ _ _ => 0) (fun Q => wts (Q % q) * wts (Q / q)) ∧
    Test (qoi (q * q * q) (qoiCube q wts)) (fun _ _ => 1) (fun _ _ _ => 0) (fun Q => wts (Q % q) * wts (Q / q % q) * wts (Q / q / q)) := by
  refine ⟨?_, ?_, ?_⟩
  · intro f a _
    simp only [qoi, qoiSum, sumTo_eq, mul_zero, sum_const_zero, add_zero, mul_one]
    exact sum_congr rfl fun Q _ => mul_comm _ _
  · intro f a _
    simp only [qoi, qoiSquare, sumTo_eq, mul_zero, sum_const_zero, add_zero, mul_one]
    rw [sum_flat2 q fun Q y x => wts x * wts y * f.value Q]
    exact sum_congr rfl fun y _ => sum_congr rfl fun x _ => by ring
  · intro f a _
    simp only [qoi, qoiCube, sumTo_eq, mul_zero, sum_const_zero, add_zero, mul_one]
    rw [sum_flat3 q fun Q z y x => wts x * wts y * wts z * f.value Q]
    exact sum_congr rfl fun z _ => sum_congr rfl fun y _ => sum_congr rfl fun x _ => by ring

/-! ### Loops that add -/

theorem loop_add (n : ℕ) (body : (ℕ → R) → ℕ → ℕ → R) (g : ℕ → ℕ → R) (h : ∀ s j p, body s j p = s p + g j p) (s : ℕ → R) (p : ℕ) :
    loop n body s p = s p + ∑ j ∈ range n, g j p := by
  unfold loop
  induction n with
  | zero => simp
  | succ n ih => rw [List.range_succ, List.foldl_append, List.foldl_cons, List.foldl_nil, h, ih, sum_range_succ, add_assoc]

theorem fold_add {A : Type} (l : List A) (body : (ℕ → R) → A → ℕ → R) (p : ℕ) (g : A → R) (h : ∀ s, ∀ a ∈ l, body s a p = s p + g a) (s : ℕ → R) :
    l.foldl body s p = s p + (l.map g).sum := by
  induction l generalizing s with
  | nil => simp
  | cons a t ih =>
    rw [List.foldl_cons, ih (fun s b hb => h s b (List.mem_cons_of_mem _ hb)), h s a List.mem_cons_self, List.map_cons, List.sum_cons, add_assoc]

theorem flat_inj {n e q e' q' : ℕ} (hq : q < n) (hq' : q' < n) : e * n + q = e' * n + q' ↔ e = e' ∧ q = q' := by
  constructor
  · intro h
    have he : e = e' := by rw [← div_flat e hq, ← div_flat e' hq', h]
    exact ⟨he, by subst he; omega⟩
  · rintro ⟨rfl, rfl⟩; rfl

/-- The number of trial columns that `integrate` deduces. -/
def cols (E : Elem R) (c sS sF : ℕ) (s f : Flat R) : ℕ := ntrial E.dim c (if s.isNone then 0 else sS) (if f.isNone then 0 else sF)

/-- What `integrate` does to entry `t` of block `a`. -/
theorem integrate_at (E : Elem R) (c sS sF : ℕ) (s f : Flat R) (out step : ℕ) (mem : ℕ → R) (a t : ℕ) (ht : t < c * E.ndof) :
    integrateInto E c sS sF s f out step mem (a * (c * E.ndof) + t) = mem (a * (c * E.ndof) + t) +
      ∑ j ∈ range (cols E c sS sF s f), if out + j * step = a then E.integ (component E (cols E c sS sF s f) s f (t / E.ndof) j) (t % E.ndof) else 0 := by
  have key : ∀ m, loop m (fun mem j => loop c (fun mem i => loop E.ndof (fun mem k =>
      addTo mem ((out + j * step) * (c * E.ndof) + i * E.ndof + k) (E.integ (component E m s f i j) k)) mem) mem) mem (a * (c * E.ndof) + t) =
      mem (a * (c * E.ndof) + t) + ∑ j ∈ range m, if out + j * step = a then E.integ (component E m s f (t / E.ndof) j) (t % E.ndof) else 0 := by
    intro m
    have h1 : ∀ (j i : ℕ) (mem : ℕ → R) (p : ℕ), loop E.ndof (fun mem k =>
        addTo mem ((out + j * step) * (c * E.ndof) + i * E.ndof + k) (E.integ (component E m s f i j) k)) mem p =
        mem p + ∑ k ∈ range E.ndof, if p = (out + j * step) * (c * E.ndof) + i * E.ndof + k then E.integ (component E m s f i j) k else 0 := by
      intro j i mem p
      refine loop_add _ _ (fun k p => if p = (out + j * step) * (c * E.ndof) + i * E.ndof + k then E.integ (component E m s f i j) k else 0) ?_ _ _
      intro s k p
      unfold addTo
      split_ifs <;> simp
    have h2 : ∀ (j : ℕ) (mem : ℕ → R) (p : ℕ), loop c (fun mem i => loop E.ndof (fun mem k =>
        addTo mem ((out + j * step) * (c * E.ndof) + i * E.ndof + k) (E.integ (component E m s f i j) k)) mem) mem p =
        mem p + ∑ i ∈ range c, ∑ k ∈ range E.ndof,
          if p = (out + j * step) * (c * E.ndof) + i * E.ndof + k then E.integ (component E m s f i j) k else 0 := by
      intro j mem p
      exact loop_add _ _ (fun i p => ∑ k ∈ range E.ndof,
          if p = (out + j * step) * (c * E.ndof) + i * E.ndof + k then E.integ (component E m s f i j) k else 0) (fun s i p => h1 j i s p) _ _
    rw [loop_add m _ (fun j p => ∑ i ∈ range c, ∑ k ∈ range E.ndof,
          if p = (out + j * step) * (c * E.ndof) + i * E.ndof + k then E.integ (component E m s f i j) k else 0) (fun s j p => h2 j s p)]
    congr 1
    refine sum_congr rfl fun j _ => ?_
    have h3 : ∀ p, ∑ i ∈ range c, ∑ k ∈ range E.ndof,
        (if p = (out + j * step) * (c * E.ndof) + i * E.ndof + k then E.integ (component E m s f i j) k else 0) =
        ∑ t ∈ range (c * E.ndof), if p = (out + j * step) * (c * E.ndof) + t then E.integ (component E m s f (t / E.ndof) j) (t % E.ndof) else 0 := by
      intro p
      rw [sum_flat]
      refine sum_congr rfl fun i _ => sum_congr rfl fun k hk => ?_
      rw [div_flat i (mem_range.1 hk), mod_flat i (mem_range.1 hk), add_assoc]
    rw [h3]
    by_cases hj : out + j * step = a
    · rw [if_pos hj, sum_eq_single_of_mem t (mem_range.2 ht)]
      · rw [if_pos (by rw [hj])]
      · intro t' ht' hne
        rw [if_neg]
        intro h
        exact hne ((flat_inj ht (mem_range.1 ht')).1 h).2.symm
    · rw [if_neg hj]
      refine sum_eq_zero fun t' ht' => if_neg fun h => hj ((flat_inj ht (mem_range.1 ht')).1 h).1.symm
  cases s with
  | none =>
    cases f with
    | none => simp [integrateInto, cols, ntrial]
    | some f => exact key _
  | some s =>
    cases f with
    | none => exact key _
    | some f => exact key _

theorem div_mod_lt {c n t : ℕ} (ht : t < c * n) : t / n < c ∧ t % n < n := by
  have hn : 0 < n := by
    rcases Nat.eq_zero_or_pos n with h | h
    · subst h; simp at ht
    · exact h
  exact ⟨(Nat.div_lt_iff_lt_mul hn).2 ht, Nat.mod_lt _ hn⟩

/-! ### The two linear kernels in closed form -/

/-- A derivative block, or zero if it is of type `zero`. -/
def e00 (z : Shape) (D : Deriv R) (i j : ℕ) : R := if z.z00 then 0 else D.d00 i j
def e01 (z : Shape) (D : Deriv R) (i j k : ℕ) : R := if z.z01 then 0 else D.d01 i j k
def e10 (z : Shape) (D : Deriv R) (i l j : ℕ) : R := if z.z10 then 0 else D.d10 i l j
def e11 (z : Shape) (D : Deriv R) (i l j k : ℕ) : R := if z.z11 then 0 else D.d11 i l j k

/-- Spec: the change of the source and of the flux for a change `(v, g)` of value and gradient. -/
def dSource (z : Shape) (m dim : ℕ) (D : Deriv R) (v : ℕ → R) (g : ℕ → ℕ → R) (i : ℕ) : R :=
  ∑ j ∈ range m, (e00 z D i j * v j + ∑ k ∈ range dim, e01 z D i j k * g j k)
def dFlux (z : Shape) (m dim : ℕ) (D : Deriv R) (v : ℕ → R) (g : ℕ → ℕ → R) (i l : ℕ) : R :=
  ∑ j ∈ range m, (e10 z D i l j * v j + ∑ k ∈ range dim, e11 z D i l j k * g j k)

theorem read_oadd (z z' : Bool) (a b : ℕ → ℕ → R) (Q p : ℕ) :
    Flat.read (oadd (fun a b Q i => a Q i + b Q i) (nonzero z a) (nonzero z' b)) Q p = (if z then 0 else a Q p) + if z' then 0 else b Q p := by
  cases z <;> cases z' <;> simp [oadd, nonzero, Flat.read]

theorem read_chainSource (z : Shape) (D : Buffer R) (m dim : ℕ) (u : Fields R) (Q i : ℕ) :
    Flat.read (chainSource z D m dim u) Q i = dSource z m dim (D Q) (u.value Q) (u.grad Q) i := by
  unfold chainSource
  rw [read_oadd]
  simp only [sumTo_eq, dSource, e00, e01, sum_add_distrib]
  cases z.z00 <;> cases z.z01 <;> simp

theorem read_chainFlux (z : Shape) (D : Buffer R) (m dim : ℕ) (u : Fields R) (Q p : ℕ) :
    Flat.read (chainFlux z D m dim u) Q p = dFlux z m dim (D Q) (u.value Q) (u.grad Q) (p / dim) (p % dim) := by
  unfold chainFlux
  rw [read_oadd]
  simp only [sumTo_eq, dFlux, e10, e11, sum_add_distrib]
  cases z.z10 <;> cases z.z11 <;> simp

theorem isNone_oadd {A : Type} (add : A → A → A) (a b : Option A) : (oadd add a b).isNone = (a.isNone && b.isNone) := by
  cases a <;> cases b <;> rfl

theorem isNone_nonzero {A : Type} (z : Bool) (a : A) : (nonzero z a).isNone = z := by
  cases z <;> rfl

theorem integ_zero {E : Elem R} {phi dphi wt} (h : Test E phi dphi wt) (f : PointData R) (h0 : ∀ Q, f.value Q = 0) (h1 : ∀ Q k, f.grad Q k = 0)
    {a : ℕ} (ha : a < E.ndof) : E.integ f a = 0 := by
  rw [h f a ha]
  exact sum_eq_zero fun Q _ => by simp [h0, h1]

/-- The spec of one integration. -/
def weigh (E : Elem R) (phi : ℕ → ℕ → R) (dphi : ℕ → ℕ → ℕ → R) (wt : ℕ → R) (s : ℕ → R) (f : ℕ → ℕ → R) (a : ℕ) : R :=
  ∑ Q ∈ range E.npts, wt Q * (s Q * phi Q a + ∑ k ∈ range E.dim, f Q k * dphi Q a k)

/-- With one column, `integrate` adds the weighted sums. -/
theorem integrate_one {E : Elem R} {phi dphi wt} (h : Test E phi dphi wt) (c : ℕ) (hc : 0 < c) (hd : 0 < E.dim) (s f : Flat R) (out : ℕ) (mem : ℕ → R)
    (a t : ℕ) (ht : t < c * E.ndof) :
    integrateInto E c c (c * E.dim) s f out 1 mem (a * (c * E.ndof) + t) = mem (a * (c * E.ndof) + t) +
      if out = a then weigh E phi dphi wt (fun Q => Flat.read s Q (t / E.ndof)) (fun Q k => Flat.read f Q (t / E.ndof * E.dim + k)) (t % E.ndof) else 0 := by
  have hk := (div_mod_lt ht).2
  rw [integrate_at E c c (c * E.dim) s f out 1 mem a t ht]
  congr 1
  by_cases hn : s.isNone ∧ f.isNone
  · obtain ⟨h1, h2⟩ := hn
    obtain rfl := Option.isNone_iff_eq_none.1 h1
    obtain rfl := Option.isNone_iff_eq_none.1 h2
    simp [cols, ntrial, weigh, Flat.read]
  · have hm : cols E c c (c * E.dim) s f = 1 := by
      obtain ⟨l1, l2, l3, -⟩ := C42_layout E.dim c 1 hd hc
      simp only [mul_one] at l1 l2 l3
      unfold cols
      cases hs : s.isNone <;> cases hf : f.isNone
      · simpa using l3
      · simpa using l1
      · simpa using l2
      · exact absurd ⟨hs, hf⟩ hn
    rw [hm, sum_range_one, zero_mul, add_zero]
    split_ifs
    · rw [h _ _ hk]
      simp [component, flatSource, flatFlux, weigh]
    · rfl

/-- **The action kernel in closed form.** -/
theorem action_at {test trial : Elem R} {phi dphi wt} (h : Test test phi dphi wt) (c m : ℕ) (hc : 0 < c) (hd : 0 < test.dim)
    (z : Shape) (D : Buffer R) (elements : List ℕ) (dU dR : ℕ → R) (el t : ℕ) (ht : t < c * test.ndof) (hz : test.dim = trial.dim ∨ (z.z10 && z.z11) = true) :
    actionKernel test trial c m z D elements dU dR (el * (c * test.ndof) + t) = dR (el * (c * test.ndof) + t) +
      (elements.zipIdx.map fun ee => if ee.1 = el then
        let u := interpolate trial fun p => dU (el * (m * trial.ndof) + p)
        weigh test phi dphi wt (fun Q => dSource z m trial.dim (D (ee.2 * test.npts + Q)) (u.value Q) (u.grad Q) (t / test.ndof))
          (fun Q k => dFlux z m trial.dim (D (ee.2 * test.npts + Q)) (u.value Q) (u.grad Q) (t / test.ndof) k) (t % test.ndof) else 0).sum := by
  unfold actionKernel
  refine fold_add _ _ _ _ ?_ _
  intro s ee _
  rw [integrate_one h c hc hd _ _ _ _ _ _ ht]
  congr 1
  by_cases he : ee.1 = el
  · rw [if_pos he, if_pos he, he]
    unfold weigh
    refine sum_congr rfl fun Q _ => ?_
    beta_reduce
    congr 2
    · rw [read_chainSource]; rfl
    · refine sum_congr rfl fun k hk => ?_
      rw [read_chainFlux]
      rcases hz with hz | hz
      · rw [← hz, div_flat _ (mem_range.1 hk), mod_flat _ (mem_range.1 hk)]; rfl
      · rw [Bool.and_eq_true] at hz
        simp [dFlux, e10, e11, hz.1, hz.2]
  · rw [if_neg he, if_neg he]

/-- The columns that shape function `J` contributes. -/
theorem read_shapeSource {trial : Elem R} {phi dphi} (h : Trial trial phi dphi) (m : ℕ) (z : Shape) (D : Buffer R) (J : ℕ) (hJ : J < trial.ndof)
    (Q i j : ℕ) (hj : j < m) : Flat.read (shapeSource trial m z D J) Q (i * m + j) =
      e00 z (D Q) i j * phi Q J + ∑ k ∈ range trial.dim, e01 z (D Q) i j k * dphi Q J k := by
  have hb : (shapeBlock trial z D J i j).value Q = e00 z (D Q) i j * phi Q J + ∑ k ∈ range trial.dim, e01 z (D Q) i j k * dphi Q J k :=
    h.apply_value J hJ _ _ _ _ _
  rw [← hb]
  unfold shapeSource
  cases hz : (z.z00 && z.z01)
  · simp only [nonzero, Flat.read, Bool.false_eq_true, if_false, div_flat i hj, mod_flat i hj]
  · rw [Bool.and_eq_true] at hz
    rw [hb]
    simp [nonzero, Flat.read, e00, e01, hz.1, hz.2]

theorem read_shapeFlux {trial : Elem R} {phi dphi} (h : Trial trial phi dphi) (m dim : ℕ) (z : Shape) (D : Buffer R) (J : ℕ) (hJ : J < trial.ndof)
    (Q i l j : ℕ) (hj : j < m) (hl : l < dim) : Flat.read (shapeFlux trial m dim z D J) Q ((i * dim + l) * m + j) =
      e10 z (D Q) i l j * phi Q J + ∑ k ∈ range trial.dim, e11 z (D Q) i l j k * dphi Q J k := by
  have hb : (shapeBlock trial z D J i j).grad Q l = e10 z (D Q) i l j * phi Q J + ∑ k ∈ range trial.dim, e11 z (D Q) i l j k * dphi Q J k :=
    h.apply_grad J hJ _ _ _ _ _ _
  rw [← hb]
  unfold shapeFlux
  cases hz : (z.z10 && z.z11)
  · simp only [nonzero, Flat.read, Bool.false_eq_true, if_false, div_flat _ hj, mod_flat _ hj, div_flat _ hl, mod_flat _ hl]
  · rw [Bool.and_eq_true] at hz
    rw [hb]
    simp [nonzero, Flat.read, e10, e11, hz.1, hz.2]

/-- **The matrix kernel in closed form**: entry (trial dof `j * ndof + J`, test dof `t`) of the matrix of element `el`. -/
theorem gradient_at {test trial : Elem R} {phi dphi wt phi' dphi'} (h : Test test phi dphi wt) (h' : Trial trial phi' dphi') (c m : ℕ) (hc : 0 < c)
    (hd : 0 < test.dim) (z : Shape) (D : Buffer R) (elements : List ℕ) (dK : ℕ → R) (el t j J : ℕ) (ht : t < c * test.ndof) (hj : j < m) (hJ : J < trial.ndof) :
    gradientKernel test trial c m z D elements dK ((el * (m * trial.ndof) + (j * trial.ndof + J)) * (c * test.ndof) + t) =
      dK ((el * (m * trial.ndof) + (j * trial.ndof + J)) * (c * test.ndof) + t) +
      (elements.zipIdx.map fun ee => if ee.1 = el then
        weigh test phi dphi wt
          (fun Q => e00 z (D (ee.2 * test.npts + Q)) (t / test.ndof) j * phi' Q J + ∑ k ∈ range trial.dim, e01 z (D (ee.2 * test.npts + Q)) (t / test.ndof) j k * dphi' Q J k)
          (fun Q l => e10 z (D (ee.2 * test.npts + Q)) (t / test.ndof) l j * phi' Q J +
            ∑ k ∈ range trial.dim, e11 z (D (ee.2 * test.npts + Q)) (t / test.ndof) l j k * dphi' Q J k) (t % test.ndof) else 0).sum := by
  have hk := (div_mod_lt ht).2
  unfold gradientKernel
  refine fold_add _ _ _ _ ?_ _
  intro s ee _
  set De := offset D (ee.2 * test.npts) with hDe
  set P := (el * (m * trial.ndof) + (j * trial.ndof + J)) * (c * test.ndof) + t with hP
  -- one shape function
  have one : ∀ (s : ℕ → R), ∀ J' < trial.ndof,
      integrateInto test c (c * m) (c * test.dim * m) (shapeSource trial m z De J') (shapeFlux trial m test.dim z De J') (ee.1 * (m * trial.ndof) + J') trial.ndof s P =
      s P + if ee.1 = el ∧ J' = J then
        weigh test phi dphi wt (fun Q => Flat.read (shapeSource trial m z De J) Q (t / test.ndof * m + j))
          (fun Q l => Flat.read (shapeFlux trial m test.dim z De J) Q ((t / test.ndof * test.dim + l) * m + j)) (t % test.ndof) else 0 := by
    intro s J' hJ'
    rw [hP, integrate_at _ _ _ _ _ _ _ _ _ _ _ ht]
    congr 1
    by_cases hn : (z.z00 && z.z01) = true ∧ (z.z10 && z.z11) = true
    · have h1 : shapeSource trial m z De J' = none := by simp [shapeSource, nonzero, hn.1]
      have h2 : shapeFlux trial m test.dim z De J' = none := by simp [shapeFlux, nonzero, hn.2]
      have h3 : shapeSource trial m z De J = none := by simp [shapeSource, nonzero, hn.1]
      have h4 : shapeFlux trial m test.dim z De J = none := by simp [shapeFlux, nonzero, hn.2]
      rw [h1, h2, h3, h4]
      simp [cols, ntrial, weigh, Flat.read]
    · have hm : cols test c (c * m) (c * test.dim * m) (shapeSource trial m z De J') (shapeFlux trial m test.dim z De J') = m := by
        obtain ⟨l1, l2, l3, -⟩ := C42_layout test.dim c m hd hc
        unfold cols
        rw [shapeSource, shapeFlux, isNone_nonzero, isNone_nonzero]
        cases hs : (z.z00 && z.z01) <;> cases hf : (z.z10 && z.z11)
        · simpa using l3
        · simpa using l1
        · simpa using l2
        · exact absurd ⟨hs, hf⟩ hn
      rw [hm]
      have hpos : ∀ j' < m, (ee.1 * (m * trial.ndof) + J' + j' * trial.ndof = el * (m * trial.ndof) + (j * trial.ndof + J) ↔ (ee.1 = el ∧ J' = J) ∧ j' = j) := by
        intro j' hj'
        have b1 : j' * trial.ndof + J' < m * trial.ndof := by
          calc j' * trial.ndof + J' < (j' + 1) * trial.ndof := by rw [add_mul, one_mul]; omega
            _ ≤ m * trial.ndof := Nat.mul_le_mul_right _ hj'
        have b2 : j * trial.ndof + J < m * trial.ndof := by
          calc j * trial.ndof + J < (j + 1) * trial.ndof := by rw [add_mul, one_mul]; omega
            _ ≤ m * trial.ndof := Nat.mul_le_mul_right _ hj
        rw [show ee.1 * (m * trial.ndof) + J' + j' * trial.ndof = ee.1 * (m * trial.ndof) + (j' * trial.ndof + J') by ring, flat_inj b1 b2, flat_inj hJ' hJ]
        tauto
      by_cases he : ee.1 = el ∧ J' = J
      · rw [if_pos he, sum_eq_single_of_mem j (mem_range.2 hj)]
        · rw [if_pos ((hpos j hj).2 ⟨he, rfl⟩), h _ _ hk, he.2]
          simp [component, flatSource, flatFlux, weigh]
        · intro j' hj' hne
          rw [if_neg fun hh => hne ((hpos j' (mem_range.1 hj')).1 hh).2]
      · rw [if_neg he]
        exact sum_eq_zero fun j' hj' => if_neg fun hh => he ((hpos j' (mem_range.1 hj')).1 hh).1
  show loop trial.ndof (fun dK J' => integrateInto test c (c * m) (c * test.dim * m) (shapeSource trial m z De J') (shapeFlux trial m test.dim z De J')
    (ee.1 * (m * trial.ndof) + J') trial.ndof dK) s P = _
  unfold loop
  rw [fold_add (List.range trial.ndof) _ P (fun J' => if ee.1 = el ∧ J' = J then
        weigh test phi dphi wt (fun Q => Flat.read (shapeSource trial m z De J) Q (t / test.ndof * m + j))
          (fun Q l => Flat.read (shapeFlux trial m test.dim z De J) Q ((t / test.ndof * test.dim + l) * m + j)) (t % test.ndof) else 0)
      (fun s J' hJ' => one s J' (List.mem_range.1 hJ')) s]
  congr 1
  have hs : ∀ (n : ℕ) (g : ℕ → R), ((List.range n).map g).sum = ∑ i ∈ range n, g i := by
    intro n g
    induction n with
    | zero => simp
    | succ n ih => rw [List.range_succ, List.map_append, List.sum_append, ih, sum_range_succ]; simp
  rw [hs]
  by_cases he : ee.1 = el
  · rw [if_pos he, sum_eq_single_of_mem J (mem_range.2 hJ) (fun J' _ hne => if_neg fun hh => hne hh.2), if_pos ⟨he, rfl⟩]
    unfold weigh
    refine sum_congr rfl fun Q _ => ?_
    beta_reduce
    rw [read_shapeSource h' m z De J hJ Q _ j hj]
    congr 2
    refine sum_congr rfl fun l hl => ?_
    rw [read_shapeFlux h' m test.dim z De J hJ Q _ l j hj (mem_range.1 hl)]
    rfl
  · rw [if_neg he]
    exact sum_eq_zero fun J' _ => if_neg fun hh => he hh.1

/-- Weighing is linear. -/
theorem weigh_sum {A : Type} (E : Elem R) (phi dphi wt) (S : Finset A) (x : A → R) (s : A → ℕ → R) (f : A → ℕ → ℕ → R) (a : ℕ) :
    ∑ b ∈ S, weigh E phi dphi wt (s b) (f b) a * x b = weigh E phi dphi wt (fun Q => ∑ b ∈ S, s b Q * x b) (fun Q k => ∑ b ∈ S, f b Q k * x b) a := by
  unfold weigh
  simp only [sum_mul]
  rw [sum_comm]
  refine sum_congr rfl fun Q _ => ?_
  rw [show ∑ k ∈ range E.dim, ∑ b ∈ S, f b Q k * x b * dphi Q a k = ∑ b ∈ S, ∑ k ∈ range E.dim, f b Q k * x b * dphi Q a k from sum_comm, ← sum_add_distrib, mul_sum]
  refine sum_congr rfl fun b _ => ?_
  rw [mul_assoc, add_mul, sum_mul]
  congr 2
  · ring
  · exact sum_congr rfl fun k _ => by ring

/-- **C51, matrix.**  For every mesh element, every test entry: the change made by the action kernel is the element matrix computed by the matrix kernel times the
element's block of the direction.  Any elements and components, any derivative data, any list of elements (also with repetitions). -/
theorem C51_matrix {test trial : Elem R} {phi dphi wt phi' dphi'} (h : Test test phi dphi wt) (h' : Trial trial phi' dphi') (c m : ℕ) (hc : 0 < c)
    (hd : 0 < test.dim) (z : Shape) (hz : test.dim = trial.dim ∨ (z.z10 && z.z11) = true) (D : Buffer R) (elements : List ℕ) (dU dR dK : ℕ → R)
    (el t : ℕ) (ht : t < c * test.ndof) :
    actionKernel test trial c m z D elements dU dR (el * (c * test.ndof) + t) - dR (el * (c * test.ndof) + t) =
      ∑ b ∈ range (m * trial.ndof), (gradientKernel test trial c m z D elements dK ((el * (m * trial.ndof) + b) * (c * test.ndof) + t) -
        dK ((el * (m * trial.ndof) + b) * (c * test.ndof) + t)) * dU (el * (m * trial.ndof) + b) := by
  rw [action_at h c m hc hd z D elements dU dR el t ht hz, add_sub_cancel_left, sum_flat]
  refine Eq.trans ?_ (sum_congr rfl fun j hj => sum_congr rfl fun J hJ => by
    rw [gradient_at h h' c m hc hd z D elements dK el t j J ht (mem_range.1 hj) (mem_range.1 hJ), add_sub_cancel_left])
  induction elements.zipIdx with
  | nil => simp
  | cons ee l ih =>
    simp only [List.map_cons, List.sum_cons, add_mul, sum_add_distrib]
    rw [ih]
    congr 1
    by_cases he : ee.1 = el
    · simp only [if_pos he]
      rw [← sum_product', weigh_sum]
      unfold weigh
      refine sum_congr rfl fun Q _ => ?_
      beta_reduce
      have hv : ∀ j, (interpolate trial fun p => dU (el * (m * trial.ndof) + p)).value Q j =
          ∑ J ∈ range trial.ndof, dU (el * (m * trial.ndof) + (j * trial.ndof + J)) * phi' Q J := fun j => h'.value _ _
      have hg : ∀ j k, (interpolate trial fun p => dU (el * (m * trial.ndof) + p)).grad Q j k =
          ∑ J ∈ range trial.ndof, dU (el * (m * trial.ndof) + (j * trial.ndof + J)) * dphi' Q J k := fun j k => h'.grad _ _ _
      have contr : ∀ (A : ℕ → R) (B : ℕ → ℕ → R),
          ∑ j ∈ range m, (A j * (interpolate trial fun p => dU (el * (m * trial.ndof) + p)).value Q j +
            ∑ k ∈ range trial.dim, B j k * (interpolate trial fun p => dU (el * (m * trial.ndof) + p)).grad Q j k) =
          ∑ x ∈ range m ×ˢ range trial.ndof, (A x.1 * phi' Q x.2 + ∑ k ∈ range trial.dim, B x.1 k * dphi' Q x.2 k) *
            dU (el * (m * trial.ndof) + (x.1 * trial.ndof + x.2)) := by
        intro A B
        rw [sum_product]
        refine sum_congr rfl fun j _ => ?_
        simp only [hv, hg, mul_sum]
        rw [sum_comm, ← sum_add_distrib]
        refine sum_congr rfl fun J _ => ?_
        rw [add_mul, sum_mul]
        congr 1
        · ring
        · exact sum_congr rfl fun k _ => by ring
      congr 2
      · unfold dSource; rw [contr]
      · refine sum_congr rfl fun l _ => ?_
        unfold dFlux; rw [contr]
    · simp [if_neg he]

/-! ### Derivative of the residual -/

omit [CommRing R] in
/-- What `evaluation_kernel_impl` stores. -/
theorem derivs_at (npts : ℕ) (trial : Elem R) (m : ℕ) (grad : ℕ → (ℕ → R) → (ℕ → ℕ → R) → Deriv R) (elements : List ℕ) (U : ℕ → R) (old : Buffer R) :
    ∀ ee ∈ elements.zipIdx, ∀ Q < npts, evalDerivs npts trial m grad elements U old (ee.2 * npts + Q) =
      grad (ee.2 * npts + Q) ((interpolate trial fun p => U (ee.1 * (m * trial.ndof) + p)).value Q) ((interpolate trial fun p => U (ee.1 * (m * trial.ndof) + p)).grad Q) := by
  -- one element
  have one : ∀ (D : Buffer R) (g : ℕ → ℕ → Deriv R) (e p : ℕ),
      loop npts (fun D Q p => if p = e * npts + Q then g p Q else D p) D p = if e * npts ≤ p ∧ p < e * npts + npts then g p (p - e * npts) else D p := by
    intro D g e p
    unfold loop
    have : ∀ n, (List.range n).foldl (fun D Q p => if p = e * npts + Q then g p Q else D p) D p =
        if e * npts ≤ p ∧ p < e * npts + n then g p (p - e * npts) else D p := by
      intro n
      induction n with
      | zero => simp [show ¬ (e * npts ≤ p ∧ p < e * npts) by omega]
      | succ n ih =>
        rw [List.range_succ, List.foldl_append, List.foldl_cons, List.foldl_nil, ih]
        by_cases h1 : p = e * npts + n
        · rw [if_pos h1, if_pos (by omega), show p - e * npts = n by omega]
        · rw [if_neg h1]
          by_cases h2 : e * npts ≤ p ∧ p < e * npts + n
          · rw [if_pos h2, if_pos (by omega)]
          · rw [if_neg h2, if_neg (by omega)]
    exact this npts
  have key : ∀ (l : List ℕ) (n : ℕ) (D : Buffer R),
      let D' := (l.zipIdx n).foldl (fun D ee =>
        let u := interpolate trial fun p => U (ee.1 * (m * trial.ndof) + p)
        loop npts (fun D Q p => if p = ee.2 * npts + Q then grad p (u.value Q) (u.grad Q) else D p) D) D
      (∀ p < n * npts, D' p = D p) ∧ ∀ ee ∈ l.zipIdx n, ∀ Q < npts, D' (ee.2 * npts + Q) =
        grad (ee.2 * npts + Q) ((interpolate trial fun p => U (ee.1 * (m * trial.ndof) + p)).value Q) ((interpolate trial fun p => U (ee.1 * (m * trial.ndof) + p)).grad Q) := by
    intro l
    induction l with
    | nil => intro n D; simp
    | cons e l ih =>
      intro n D
      simp only [List.zipIdx_cons, List.foldl_cons]
      obtain ⟨h1, h2⟩ := ih (n + 1) (loop npts (fun D Q p => if p = n * npts + Q then
        grad p ((interpolate trial fun p => U (e * (m * trial.ndof) + p)).value Q) ((interpolate trial fun p => U (e * (m * trial.ndof) + p)).grad Q) else D p) D)
      have hn : (n + 1) * npts = n * npts + npts := by ring
      refine ⟨?_, ?_⟩
      · intro p hp
        rw [h1 p (by omega), one D (fun p Q => grad p ((interpolate trial fun p => U (e * (m * trial.ndof) + p)).value Q)
          ((interpolate trial fun p => U (e * (m * trial.ndof) + p)).grad Q)), if_neg (by omega)]
      · intro ee hee Q hQ
        rcases List.mem_cons.1 hee with rfl | hee
        · rw [h1 _ (by simp only; omega), one D (fun p Q => grad p ((interpolate trial fun p => U (e * (m * trial.ndof) + p)).value Q)
            ((interpolate trial fun p => U (e * (m * trial.ndof) + p)).grad Q)), if_pos (by simp only; omega)]
          simp only [Nat.add_sub_cancel_left]
        · exact h2 ee hee Q hQ
  exact (key elements 0 old).2

/-- The residual in closed form. -/
theorem eval_at {test trial : Elem R} {phi dphi wt} (h : Test test phi dphi wt) (c m : ℕ) (hc : 0 < c) (hd : 0 < test.dim) (zs zf : Bool) (qf : PointFn R)
    (elements : List ℕ) (U r : ℕ → R) (el t : ℕ) (ht : t < c * test.ndof) :
    evalKernel test trial c m zs zf qf elements U r (el * (c * test.ndof) + t) = r (el * (c * test.ndof) + t) +
      (elements.zipIdx.map fun ee => if ee.1 = el then
        let u := interpolate trial fun p => U (ee.1 * (m * trial.ndof) + p)
        weigh test phi dphi wt (fun Q => if zs then 0 else (qf (ee.2 * test.npts + Q) (u.value Q) (u.grad Q)).1 (t / test.ndof))
          (fun Q k => if zf then 0 else (qf (ee.2 * test.npts + Q) (u.value Q) (u.grad Q)).2 (t / test.ndof) k) (t % test.ndof) else 0).sum := by
  unfold evalKernel
  refine fold_add _ _ _ _ ?_ _
  intro s ee _
  rw [integrate_one h c hc hd _ _ _ _ _ _ ht]
  congr 1
  by_cases he : ee.1 = el
  · rw [if_pos he, if_pos he]
    unfold weigh
    refine sum_congr rfl fun Q _ => ?_
    beta_reduce
    congr 2
    · cases zs <;> simp [nonzero, Flat.read]
    · refine sum_congr rfl fun k hk => ?_
      cases zf
      · simp [nonzero, Flat.read, div_flat _ (mem_range.1 hk), mod_flat _ (mem_range.1 hk)]
      · simp [nonzero, Flat.read]
  · rw [if_neg he, if_neg he]

/-- Spec: at point `p`, with value `v` and gradient `g`, `grad` is the derivative of the q-function `qf`: along every line.  `zs`, `zf`, `z` say which outputs and which blocks
are `zero`. -/
def IsDerivativeAt (qf : PointFn ℝ) (grad : ℕ → (ℕ → ℝ) → (ℕ → ℕ → ℝ) → Deriv ℝ) (zs zf : Bool) (z : Shape) (c m dimTest dim : ℕ) (p : ℕ) (v : ℕ → ℝ) (g : ℕ → ℕ → ℝ) : Prop :=
  ∀ dv dg,
    (∀ i < c, HasDerivAt (fun s : ℝ => if zs then 0 else (qf p (fun j => v j + s * dv j) (fun j k => g j k + s * dg j k)).1 i)
      (dSource z m dim (grad p v g) dv dg i) 0) ∧
    ∀ i < c, ∀ l < dimTest, HasDerivAt (fun s : ℝ => if zf then 0 else (qf p (fun j => v j + s * dv j) (fun j k => g j k + s * dg j k)).2 i l)
      (dFlux z m dim (grad p v g) dv dg i l) 0

/-- Spec: `grad` is the derivative of the q-function `qf` everywhere. -/
def IsDerivative (qf : PointFn ℝ) (grad : ℕ → (ℕ → ℝ) → (ℕ → ℕ → ℝ) → Deriv ℝ) (zs zf : Bool) (z : Shape) (c m dimTest dim : ℕ) : Prop :=
  ∀ p v g, IsDerivativeAt qf grad zs zf z c m dimTest dim p v g

/-- The derivative of the residual, when `grad` is the derivative at the points and states that occur. -/
theorem derivative_at {test trial : Elem ℝ} {phi dphi wt phi' dphi'} (h : Test test phi dphi wt) (h' : Trial trial phi' dphi') (c m : ℕ) (hc : 0 < c)
    (hd : 0 < test.dim) (zs zf : Bool) (z : Shape) (hz : test.dim = trial.dim ∨ (z.z10 && z.z11) = true) (qf : PointFn ℝ) (grad : ℕ → (ℕ → ℝ) → (ℕ → ℕ → ℝ) → Deriv ℝ)
    (elements : List ℕ) (U dU r : ℕ → ℝ)
    (hq : ∀ ee ∈ elements.zipIdx, ∀ Q < test.npts, IsDerivativeAt qf grad zs zf z c m test.dim trial.dim (ee.2 * test.npts + Q)
      ((interpolate trial fun p => U (ee.1 * (m * trial.ndof) + p)).value Q) ((interpolate trial fun p => U (ee.1 * (m * trial.ndof) + p)).grad Q)) (old : Buffer ℝ) (el t : ℕ) (ht : t < c * test.ndof) :
    HasDerivAt (fun s : ℝ => evalKernel test trial c m zs zf qf elements (fun p => U p + s * dU p) r (el * (c * test.ndof) + t))
      (actionKernel test trial c m z (evalDerivs test.npts trial m grad elements U old) elements dU (fun _ => 0) (el * (c * test.ndof) + t)) 0 := by
  have hD := derivs_at test.npts trial m grad elements U old
  rw [action_at h c m hc hd z _ elements dU _ el t ht hz, zero_add]
  have hf : (fun s : ℝ => evalKernel test trial c m zs zf qf elements (fun p => U p + s * dU p) r (el * (c * test.ndof) + t)) = fun s => _ :=
    funext fun s => eval_at h c m hc hd zs zf qf elements (fun p => U p + s * dU p) r el t ht
  rw [hf]
  refine HasDerivAt.const_add _ ?_
  generalize elements.zipIdx = l at hD hq ⊢
  induction l with
  | nil => simpa using hasDerivAt_const (0 : ℝ) (0 : ℝ)
  | cons ee l ih =>
    simp only [List.map_cons, List.sum_cons]
    refine HasDerivAt.add ?_ (ih (fun x hx => hD x (List.mem_cons_of_mem _ hx)) fun x hx => hq x (List.mem_cons_of_mem _ hx))
    by_cases he : ee.1 = el
    · simp only [if_pos he]
      rw [he]
      unfold weigh
      refine HasDerivAt.fun_sum fun Q hQ => HasDerivAt.const_mul _ ?_
      have hint : ∀ s : ℝ, (interpolate trial fun p => U (el * (m * trial.ndof) + p) + s * dU (el * (m * trial.ndof) + p)).value Q =
          (fun j => (interpolate trial fun p => U (el * (m * trial.ndof) + p)).value Q j + s * (interpolate trial fun p => dU (el * (m * trial.ndof) + p)).value Q j) := by
        intro s; funext j
        simp only [interpolate, h'.value, mul_sum, ← sum_add_distrib]
        exact sum_congr rfl fun a _ => by ring
      have hing : ∀ s : ℝ, (interpolate trial fun p => U (el * (m * trial.ndof) + p) + s * dU (el * (m * trial.ndof) + p)).grad Q =
          (fun j k => (interpolate trial fun p => U (el * (m * trial.ndof) + p)).grad Q j k + s * (interpolate trial fun p => dU (el * (m * trial.ndof) + p)).grad Q j k) := by
        intro s; funext j k
        simp only [interpolate, h'.grad, mul_sum, ← sum_add_distrib]
        exact sum_congr rfl fun a _ => by ring
      simp only [hint, hing]
      rw [hD ee List.mem_cons_self Q (mem_range.1 hQ), he]
      have hq' := hq ee List.mem_cons_self Q (mem_range.1 hQ) ((interpolate trial fun p => dU (el * (m * trial.ndof) + p)).value Q)
        ((interpolate trial fun p => dU (el * (m * trial.ndof) + p)).grad Q)
      rw [he] at hq'
      have hi := (div_mod_lt ht).1
      exact ((hq'.1 _ hi).mul_const _).add (HasDerivAt.fun_sum fun k hk => (hq'.2 _ hi k (mem_range.1 hk)).mul_const _)
    · simp only [if_neg he]
      exact hasDerivAt_const _ _

/-- **C51, derivative.**  Evaluate the residual at `U` and keep the stored derivatives; the action kernel applied to any direction then gives the derivative of
every entry of the residual along that direction. -/
theorem C51_derivative {test trial : Elem ℝ} {phi dphi wt phi' dphi'} (h : Test test phi dphi wt) (h' : Trial trial phi' dphi') (c m : ℕ) (hc : 0 < c)
    (hd : 0 < test.dim) (zs zf : Bool) (z : Shape) (hz : test.dim = trial.dim ∨ (z.z10 && z.z11) = true) (qf : PointFn ℝ) (grad : ℕ → (ℕ → ℝ) → (ℕ → ℕ → ℝ) → Deriv ℝ)
    (hq : IsDerivative qf grad zs zf z c m test.dim trial.dim) (elements : List ℕ) (U dU r : ℕ → ℝ) (old : Buffer ℝ) (el t : ℕ) (ht : t < c * test.ndof) :
    HasDerivAt (fun s : ℝ => evalKernel test trial c m zs zf qf elements (fun p => U p + s * dU p) r (el * (c * test.ndof) + t))
      (actionKernel test trial c m z (evalDerivs test.npts trial m grad elements U old) elements dU (fun _ => 0) (el * (c * test.ndof) + t)) 0 :=
  derivative_at h h' c m hc hd zs zf z hz qf grad elements U dU r (fun _ _ _ _ => hq _ _ _) old el t ht

/-- **C51, both**: the element matrix of the derivatives stored by an evaluation is the Jacobian of the element residual. -/
theorem C51_jacobian {test trial : Elem ℝ} {phi dphi wt phi' dphi'} (h : Test test phi dphi wt) (h' : Trial trial phi' dphi') (c m : ℕ) (hc : 0 < c)
    (hd : 0 < test.dim) (zs zf : Bool) (z : Shape) (hz : test.dim = trial.dim ∨ (z.z10 && z.z11) = true) (qf : PointFn ℝ) (grad : ℕ → (ℕ → ℝ) → (ℕ → ℕ → ℝ) → Deriv ℝ)
    (hq : IsDerivative qf grad zs zf z c m test.dim trial.dim) (elements : List ℕ) (U dU r : ℕ → ℝ) (old : Buffer ℝ) (el t : ℕ) (ht : t < c * test.ndof) :
    HasDerivAt (fun s : ℝ => evalKernel test trial c m zs zf qf elements (fun p => U p + s * dU p) r (el * (c * test.ndof) + t))
      (∑ b ∈ range (m * trial.ndof), gradientKernel test trial c m z (evalDerivs test.npts trial m grad elements U old) elements (fun _ => 0)
        ((el * (m * trial.ndof) + b) * (c * test.ndof) + t) * dU (el * (m * trial.ndof) + b)) 0 := by
  have := C51_derivative h h' c m hc hd zs zf z hz qf grad hq elements U dU r old el t ht
  have hm := C51_matrix h h' c m hc hd z hz (evalDerivs test.npts trial m grad elements U old) elements dU (fun _ => 0) (fun _ => 0) el t ht
  simp only [sub_zero] at hm
  rwa [hm] at this

/-! ### Example: a nonlinear reaction `u²` with flux `∇u` on one linear triangle with a one-point rule -/

/-- Shape functions `1 - x - y`, `x`, `y`; the point `(1/3, 1/3)` with weight `1/2`. -/
noncomputable def tri : Simplex ℝ (ℝ × ℝ) where
  dim := 2
  ndof := 3
  npts := 1
  phi x a := if a = 0 then 1 - x.1 - x.2 else if a = 1 then x.1 else x.2
  dphi _ a k := if a = 0 then -1 else if a = k + 1 then 1 else 0
  xi _ := (1 / 3, 1 / 3)
  wt _ := 1 / 2

def exQf : PointFn ℝ := fun _ v g => (fun _ => v 0 ^ 2, fun _ l => g 0 l)
def exGrad : ℕ → (ℕ → ℝ) → (ℕ → ℕ → ℝ) → Deriv ℝ := fun _ v _ =>
  ⟨fun _ _ => 2 * v 0, fun _ _ _ => 0, fun _ _ _ => 0, fun _ l _ k => if l = k then 1 else 0⟩
def exShape : Shape := ⟨false, true, true, false⟩

theorem ex_derivative : IsDerivative exQf exGrad false false exShape 1 1 2 2 := by
  intro p v g dv dg
  constructor
  · intro i _
    simp only [Bool.false_eq_true, if_false, exQf]
    have h := (((hasDerivAt_id (0 : ℝ)).mul_const (dv 0)).const_add (v 0)).pow 2
    refine h.congr_deriv ?_
    simp [dSource, e00, e01, exShape, exGrad]
  · intro i _ l hl
    simp only [Bool.false_eq_true, if_false, exQf]
    have h := ((hasDerivAt_id (0 : ℝ)).mul_const (dg 0 l)).const_add (g 0 l)
    refine h.congr_deriv ?_
    simp [dFlux, e10, e11, exShape, exGrad, hl]

/-- All hypotheses of the theorems hold for it, and entry `(1, 1)` of its element matrix at `U = (3, 6, 9)` is `2 · 6 · (1/3)² / 2 + 1/2`. -/
example : Test (simplex tri) (fun _ a => tri.phi (1 / 3, 1 / 3) a) (fun _ a k => tri.dphi (1 / 3, 1 / 3) a k) (fun _ => 1 / 2) ∧
    gradientKernel (simplex tri) (simplex tri) 1 1 exShape
      (evalDerivs 1 (simplex tri) 1 exGrad [0] (fun p => if p = 0 then 3 else if p = 1 then 6 else 9) fun _ => ⟨fun _ _ => 0, fun _ _ _ => 0, fun _ _ _ => 0, fun _ _ _ _ => 0⟩)
      [0] (fun _ => 0) 4 = 7 / 6 := by
  refine ⟨(C51_simplex tri).2, ?_⟩
  have hT := C51_simplex tri
  have h := gradient_at hT.2 hT.1 1 1 one_pos (show 0 < 2 by norm_num) exShape
    (evalDerivs 1 (simplex tri) 1 exGrad [0] (fun p => if p = 0 then 3 else if p = 1 then 6 else 9) fun _ => ⟨fun _ _ => 0, fun _ _ _ => 0, fun _ _ _ => 0, fun _ _ _ _ => 0⟩)
    [0] (fun _ => 0) 0 1 0 1 (show 1 < 1 * 3 by norm_num) one_pos (show 1 < 3 by norm_num)
  have hd := derivs_at 1 (simplex tri) 1 exGrad [0] (fun p => if p = 0 then 3 else if p = 1 then 6 else 9)
    (fun _ => ⟨fun _ _ => 0, fun _ _ _ => 0, fun _ _ _ => 0, fun _ _ _ _ => 0⟩) (0, 0) (by simp) 0 one_pos
  have hv : (interpolate (simplex tri) fun p => if p = 0 then (3 : ℝ) else if p = 1 then 6 else 9).value 0 0 = 6 := by
    simp only [interpolate, hT.1.value]
    simp [simplex, tri, sum_range_succ]
    norm_num
  refine h.trans ?_
  simp only [zero_mul, zero_add] at hd
  generalize evalDerivs 1 (simplex tri) 1 exGrad [0] (fun p => if p = 0 then (3 : ℝ) else if p = 1 then 6 else 9)
    (fun _ => ⟨fun _ _ => 0, fun _ _ _ => 0, fun _ _ _ => 0, fun _ _ _ _ => 0⟩) = D at hd ⊢
  have h00 : ∀ i j, (D 0).d00 i j = 12 := by
    intro i j
    rw [hd]
    show 2 * (interpolate (simplex tri) fun p => if p = 0 then (3 : ℝ) else if p = 1 then 6 else 9).value 0 0 = 12
    rw [hv]; norm_num
  have h11 : ∀ i l j k, (D 0).d11 i l j k = if l = k then 1 else 0 := by intro i l j k; rw [hd]; rfl
  have n1 : (simplex tri).npts = 1 := rfl
  have n2 : (simplex tri).dim = 2 := rfl
  have n3 : (simplex tri).ndof = 3 := rfl
  have p1 : ∀ Q, tri.phi (tri.xi Q) 1 = 1 / 3 := by intro Q; simp [tri]
  have p2 : ∀ Q k, tri.dphi (tri.xi Q) 1 k = if k = 0 then 1 else 0 := by intro Q k; simp [tri, eq_comm]
  have p3 : ∀ Q, tri.wt Q = 1 / 2 := fun _ => rfl
  simp [weigh, n1, n2, n3, e00, e01, e10, e11, exShape, h00, h11, p1, p2, p3, sum_range_succ]
  norm_num

end Serac.C51
