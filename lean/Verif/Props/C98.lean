import Verif.Props.C95
import Verif.Props.C78
import Mathlib.Analysis.Calculus.Deriv.Slope
import Mathlib.Analysis.Calculus.Deriv.Mul
import Mathlib.Analysis.Calculus.Deriv.Pow
import Mathlib.Topology.Order.LocalExtr
/-!
# C98: contact steps minimise the energy of the bodies

Spec.  If the forces of the bodies derive from a convex energy, the state after a step with contact has the least energy among all displacements with the same supports
that overlap nowhere more than it does (`Minimal`); springs at the surfaces with penalty enforcement count as part of the energy.

That is what the residual zero means if no accepted pressure pulls at surfaces that do not overlap (`C98_minimum_partial`, `C98_penalty_partial`); if one does, there is a
displacement with less energy (`C98_iff`).  For linear bodies and surfaces one Newton correction suffices once the active set is the right one (`C98_newton`), always for tied
surfaces (`C98_tied`).  A solution is not recognised when the surfaces come into contact, because the pressures held before decide which multipliers count
(`C98_arrival_wrong`).
-/

noncomputable section
namespace Serac.C98
open Serac.Contact Serac.C34 Serac.C35 Serac.C95
open Classical

/-! ## Specification -/

/-- Sum over the interactions. -/
def total (xs : List Inter) (f : ℕ → Inter → ℝ) : ℝ := ∑ i ∈ Finset.range xs.length, (xs[i]?).elim 0 (f i)

/-- Rate of the gap at dof `d` of interaction `i` when the bodies move by `w`. -/
def rate (T : Tribol) (n i : ℕ) (u : ℕ → ℝ) (d : ℕ) (w : ℕ → ℝ) : ℝ := ∑ j ∈ Finset.range n, T.slope i (T.coords u) d j * w j

/-- What is assumed of the surfaces: the pressures do work on the change of the gaps, the gaps are concave functions of the displacement (the admissible displacements form a
convex set), those of tied surfaces affine. -/
structure Surfaces (T : Tribol) (n : ℕ) (xs : List Inter) : Prop where
  force : ∀ (i : ℕ) (x : Inter), xs[i]? = some x → ∀ c p k, k < n → T.force i c p k = ∑ d ∈ Finset.range x.size, T.slope i c d k * p d
  concave : ∀ (i : ℕ) (x : Inter), xs[i]? = some x → ∀ u v d, d < x.size →
    T.gap i (T.coords v) d ≤ T.gap i (T.coords u) d + rate T n i u d fun j => v j - u j
  tied : ∀ (i : ℕ) (x : Inter), xs[i]? = some x → x.frictionless = false → ∀ u v d, d < x.size →
    T.gap i (T.coords v) d = T.gap i (T.coords u) d + rate T n i u d fun j => v j - u j

/-- The forces of the body derive from the convex energy `E`. -/
def Convex (H : Host) (E : (ℕ → ℝ) → ℝ) : Prop := ∀ u v, E u + ∑ k ∈ Finset.range H.n, H.R u k * (v k - u k) ≤ E v

/-- Energy of the springs of a penalty interaction. -/
def spring (x : Inter) (g : ℕ → ℝ) : ℝ :=
  if x.lm then 0 else
    x.penalty / 2 * ∑ d ∈ Finset.range x.size, (if x.frictionless then min 0 (g d) else if d ∈ x.fixedInactive then 0 else g d) ^ 2

/-- Energy of the bodies and of the springs. -/
def energy (T : Tribol) (E : (ℕ → ℝ) → ℝ) (xs : List Inter) (v : ℕ → ℝ) : ℝ := E v + total xs fun i x => spring x (T.gap i (T.coords v))

/-- At the multipliers, `v` overlaps nowhere more than `u` does, and ties what is tied. -/
def NoWorse (T : Tribol) (xs : List Inter) (u v : ℕ → ℝ) : Prop := ∀ (i : ℕ) (x : Inter), xs[i]? = some x → x.lm = true → ∀ d, d < x.size →
  (x.frictionless = true → min 0 (T.gap i (T.coords u) d) ≤ T.gap i (T.coords v) d) ∧
  (x.frictionless = false → d ∉ x.fixedInactive → T.gap i (T.coords v) d = 0)

/-- Least energy among the displacements with the same supports that are no worse. -/
def Minimal (T : Tribol) (H : Host) (E : (ℕ → ℝ) → ℝ) (xs : List Inter) (u : ℕ → ℝ) : Prop :=
  ∀ v, (∀ k, k < H.n → k ∈ H.ess → v k = u k) → NoWorse T xs u v → energy T E xs u ≤ energy T E xs v

/-- A frictionless dof with penalty enforcement whose surfaces overlap by less than the threshold of the active set, without pressure. -/
def Tiny (seen : List Inter) : Prop :=
  ∃ (i : ℕ) (y : Inter) (d : ℕ), seen[i]? = some y ∧ y.lm = false ∧ y.frictionless = true ∧ d < y.size ∧ y.p d = 0 ∧ -(1 / 10 ^ 14) ≤ y.g d ∧ y.g d < 0

/-! ## Sums -/

theorem mapIdx_sum (xs : List Inter) (f : ℕ → Inter → ℝ) : (xs.mapIdx f).sum = total xs f := by
  unfold total
  induction xs generalizing f with
  | nil => simp
  | cons x xs ih =>
    rw [List.mapIdx_cons, List.sum_cons, ih, List.length_cons, Finset.sum_range_succ']
    simp [add_comm]

theorem total_congr {xs : List Inter} {f g : ℕ → Inter → ℝ} (h : ∀ (i : ℕ) (x : Inter), xs[i]? = some x → f i x = g i x) : total xs f = total xs g := by
  refine Finset.sum_congr rfl fun i hi => ?_
  have hx := List.getElem?_eq_getElem (Finset.mem_range.1 hi)
  rw [hx]
  exact h i _ hx

theorem total_le {xs : List Inter} {f g : ℕ → Inter → ℝ} (h : ∀ (i : ℕ) (x : Inter), xs[i]? = some x → f i x ≤ g i x) : total xs f ≤ total xs g := by
  refine Finset.sum_le_sum fun i hi => ?_
  have hx := List.getElem?_eq_getElem (Finset.mem_range.1 hi)
  rw [hx]
  exact h i _ hx

theorem total_add (xs : List Inter) (f g : ℕ → Inter → ℝ) : total xs f + total xs g = total xs fun i x => f i x + g i x := by
  unfold total
  rw [← Finset.sum_add_distrib]
  refine Finset.sum_congr rfl fun i hi => ?_
  rw [List.getElem?_eq_getElem (Finset.mem_range.1 hi)]
  rfl

/-- The contact forces do work on the gaps. -/
theorem work {T : Tribol} {n : ℕ} {xs : List Inter} (h : Surfaces T n xs) (u w : ℕ → ℝ) :
    ∑ k ∈ Finset.range n, contactForce T (T.coords u) xs k * w k = total xs fun i x => ∑ d ∈ Finset.range x.size, x.p d * rate T n i u d w := by
  unfold contactForce
  simp only [mapIdx_sum]
  unfold total
  simp only [Finset.sum_mul]
  rw [Finset.sum_comm]
  refine Finset.sum_congr rfl fun i hi => ?_
  have hx := List.getElem?_eq_getElem (Finset.mem_range.1 hi)
  rw [hx]
  simp only [Option.elim_some]
  unfold rate
  simp only [Finset.mul_sum]
  rw [Finset.sum_comm]
  refine Finset.sum_congr rfl fun k hk => ?_
  rw [h.force i _ hx _ _ k (Finset.mem_range.1 hk), Finset.sum_mul]
  exact Finset.sum_congr rfl fun d _ => by ring

/-! ## The laws of contact -/

/-- Pressure and gap at a dof obey the law of the interaction. -/
def Lawful (y : Inter) (g : ℕ → ℝ) (d : ℕ) : Prop :=
  if y.lm then
    if y.frictionless then y.p d = 0 ∨ y.p d < 0 ∧ g d = 0 else if d ∈ y.fixedInactive then y.p d = 0 else g d = 0
  else y.p d = y.penalty * if y.frictionless then min 0 (g d) else if d ∈ y.fixedInactive then 0 else g d

theorem min_sq (a b s : ℝ) (h : b ≤ a + s) : min 0 a * s ≤ 1 / 2 * (min 0 b ^ 2 - min 0 a ^ 2) := by
  rcases le_total a 0 with ha | ha <;> rcases le_total b 0 with hb | hb
  · rw [min_eq_right ha, min_eq_right hb]
    nlinarith [sq_nonneg (b - a)]
  · rw [min_eq_right ha, min_eq_left hb]
    nlinarith [sq_nonneg a]
  · rw [min_eq_left ha, min_eq_right hb]
    nlinarith [sq_nonneg b]
  · rw [min_eq_left ha, min_eq_left hb]
    simp

/-- Lawful pressures and balance make a minimum. -/
theorem minimal_of {T : Tribol} {H : Host} {E : (ℕ → ℝ) → ℝ} (hE : Convex H E) {xs : List Inter} (hS : Surfaces T H.n xs) {u : ℕ → ℝ}
    (hpen : ∀ y ∈ xs, 0 ≤ y.penalty) (hb : ∀ k, k < H.n → k ∉ H.ess → H.R u k + contactForce T (T.coords u) xs k = 0)
    (hl : ∀ (i : ℕ) (y : Inter), xs[i]? = some y → ∀ d, d < y.size → Lawful y (T.gap i (T.coords u)) d) : Minimal T H E xs u := by
  intro v hv hw
  unfold energy
  have h1 := hE u v
  have h2 : ∑ k ∈ Finset.range H.n, H.R u k * (v k - u k) = -∑ k ∈ Finset.range H.n, contactForce T (T.coords u) xs k * (v k - u k) := by
    rw [← Finset.sum_neg_distrib]
    refine Finset.sum_congr rfl fun k hk => ?_
    have hk' := Finset.mem_range.1 hk
    by_cases he : k ∈ H.ess
    · rw [hv k hk' he]; ring
    · have := hb k hk' he
      rw [show H.R u k = -contactForce T (T.coords u) xs k by linarith]
      ring
  rw [h2, work hS u fun j => v j - u j] at h1
  have h3 : (total xs fun i x => spring x (T.gap i (T.coords u))) + (total xs fun i x => ∑ d ∈ Finset.range x.size, x.p d * rate T H.n i u d fun j => v j - u j) ≤
      total xs fun i x => spring x (T.gap i (T.coords v)) := by
    rw [total_add]
    refine total_le fun i y hy => ?_
    have hlaw := hl i y hy
    unfold spring
    by_cases hlm : y.lm = true
    · rw [if_pos hlm, if_pos hlm, zero_add]
      refine Finset.sum_nonpos fun d hd => ?_
      have hd' := Finset.mem_range.1 hd
      have hld := hlaw d hd'
      unfold Lawful at hld
      rw [if_pos hlm] at hld
      by_cases hf : y.frictionless = true
      · rw [if_pos hf] at hld
        rcases hld with h0 | ⟨h0, hg⟩
        · rw [h0, zero_mul]
        · have e1 := hS.concave i y hy u v d hd'
          have e2 := (hw i y hy hlm d hd').1 hf
          rw [hg, min_self] at e2
          rw [hg] at e1
          have e3 : 0 ≤ rate T H.n i u d fun j => v j - u j := by linarith
          exact mul_nonpos_of_nonpos_of_nonneg h0.le e3
      · have hf' : y.frictionless = false := by simpa using hf
        rw [if_neg hf] at hld
        by_cases hin : d ∈ y.fixedInactive
        · rw [if_pos hin] at hld
          rw [hld, zero_mul]
        · rw [if_neg hin] at hld
          have e1 := hS.tied i y hy hf' u v d hd'
          rw [(hw i y hy hlm d hd').2 hf' hin, hld] at e1
          rw [show (rate T H.n i u d fun j => v j - u j) = 0 by linarith, mul_zero]
    · rw [if_neg hlm, if_neg hlm]
      have hκ := hpen y (List.mem_of_getElem? hy)
      rw [Finset.mul_sum, Finset.mul_sum, ← Finset.sum_add_distrib]
      refine Finset.sum_le_sum fun d hd => ?_
      have hd' := Finset.mem_range.1 hd
      have hld := hlaw d hd'
      unfold Lawful at hld
      rw [if_neg hlm] at hld
      rw [hld]
      by_cases hf : y.frictionless = true
      · simp only [if_pos hf]
        have := min_sq _ _ _ (hS.concave i y hy u v d hd')
        nlinarith
      · have hf' : y.frictionless = false := by simpa using hf
        simp only [if_neg hf]
        by_cases hin : d ∈ y.fixedInactive
        · simp [hin]
        · simp only [if_neg hin]
          have e1 := hS.tied i y hy hf' u v d hd'
          rw [e1]
          nlinarith [mul_nonneg hκ (sq_nonneg (rate T H.n i u d fun j => v j - u j))]
  linarith

/-! ## What an accepted residual says -/

theorem Same.symm_get {xs ys : List Inter} (h : Same xs ys) {i : ℕ} {y : Inter} (hy : ys[i]? = some y) :
    ∃ x, xs[i]? = some x ∧ y.lm = x.lm ∧ y.frictionless = x.frictionless ∧ y.size = x.size ∧ y.penalty = x.penalty ∧ y.fixedInactive = x.fixedInactive := by
  have hi : i < xs.length := by
    rw [h.1]
    exact (List.getElem?_eq_some_iff.1 hy).1
  have hx := List.getElem?_eq_getElem hi
  obtain ⟨p, g, B, e⟩ := h.2 i _ hx
  obtain rfl : y = _ := Option.some.inj (hy.symm.trans e)
  exact ⟨_, hx, rfl, rfl, rfl, rfl, rfl⟩

theorem Surfaces.same {T : Tribol} {n : ℕ} {xs ys : List Inter} (hS : Surfaces T n xs) (h : Same xs ys) : Surfaces T n ys where
  force i y hy := by
    obtain ⟨x, hx, -, -, e, -, -⟩ := Same.symm_get h hy
    rw [e]
    exact hS.force i x hx
  concave i y hy := by
    obtain ⟨x, hx, -, -, e, -, -⟩ := Same.symm_get h hy
    rw [e]
    exact hS.concave i x hx
  tied i y hy := by
    obtain ⟨x, hx, -, e', e, -, -⟩ := Same.symm_get h hy
    rw [e, e']
    exact hS.tied i x hx

theorem Same.penalty {xs ys : List Inter} (h : Same xs ys) (hp : ∀ x ∈ xs, 0 ≤ x.penalty) : ∀ y ∈ ys, 0 ≤ y.penalty := by
  intro y hy
  obtain ⟨i, hi⟩ := List.mem_iff_getElem?.1 hy
  obtain ⟨x, hx, -, -, -, e, -⟩ := Same.symm_get h hi
  rw [e]
  exact hp x (List.mem_of_getElem? hx)

theorem inactive_tied {y : Inter} (hf : y.frictionless = false) : y.inactive = y.fixedInactive := by
  unfold Inter.inactive
  rw [if_neg (by simp [hf])]

/-- A residual that vanishes, evaluated with pressures that do not pull: balance and the laws of contact. -/
theorem lawful_of {T : Tribol} {H : Host} {junk x : ℕ → ℝ} {s s' : Live} {r : ℕ → ℝ} (h : Inv s.data) (he : residualFn T H junk x s = some (s', r))
    (hz : ∀ k, k < H.n + s'.data.numDofs → |r k| ≤ 0) (hp : ∀ y ∈ s.data.inters, 0 ≤ y.penalty) (hno : ¬Suction s'.data.inters) (ht : ¬Tiny s'.data.inters) :
    (∀ k, k < H.n → k ∉ H.ess → H.R (head H.n x) k + contactForce T (T.coords (head H.n x)) s'.data.inters k = 0) ∧
      ∀ (i : ℕ) (y : Inter), s'.data.inters[i]? = some y → ∀ d, d < y.size → Lawful y (T.gap i (T.coords (head H.n x))) d := by
  obtain ⟨s2, r2, b0, b1, b2, b3, b4, b5, b6, b7, b8⟩ := residual_spec T H junk x s h
  obtain ⟨rfl, rfl⟩ : s2 = s' ∧ r2 = r := by
    have := Option.some.inj (b0.symm.trans he)
    exact ⟨congrArg Prod.fst this, congrArg Prod.snd this⟩
  have hz' : ∀ k, k < H.n + s2.data.numDofs → r2 k = 0 := fun k hk => abs_eq_zero.1 (le_antisymm (hz k hk) (abs_nonneg _))
  refine ⟨fun k hk hess => ?_, fun i y hy d hd => ?_⟩
  · have := hz' k (by omega)
    rw [b7 k hk, if_neg hess, b6, b2] at this
    exact this
  obtain ⟨x0, hx0, e1, e2, e3, e4, e5⟩ := Same.symm_get b3 hy
  have hya : y = after T H.n s.data.inters x i x0 := Option.some.inj (hy.symm.trans (b5 i x0 hx0))
  have hg : y.g = T.gap i (T.coords (head H.n x)) := by rw [hya]; rfl
  rw [← hg]
  unfold Lawful
  by_cases hlm : y.lm = true
  · rw [if_pos hlm]
    obtain ⟨hlt, hr⟩ := b8 i y hy hlm d hd
    rw [hz' _ (by omega)] at hr
    by_cases hf : y.frictionless = true
    · rw [if_pos hf]
      by_cases hin : d ∈ y.inactive
      · obtain ⟨-, k2, k3⟩ := (C35_active_set y hf d).1 hin
        left
        by_contra hne
        exact hno ⟨i, y, d, hy, hf, hd, lt_of_le_of_ne k2 (Ne.symm hne), k3⟩
      · right
        rw [if_neg hin] at hr
        refine ⟨?_, hr.symm⟩
        by_contra hge
        exact hin ((C35_active_set y hf d).2 ⟨hd, not_lt.1 hge, by rw [← hr]; norm_num⟩)
    · have hf' : y.frictionless = false := by simpa using hf
      rw [if_neg hf]
      rw [inactive_tied hf'] at hr
      by_cases hin : d ∈ y.fixedInactive
      · rw [if_pos hin]
        rw [hya]
        unfold after Inter.newPressure
        dsimp only
        rw [if_pos]
        rw [inactive_tied (by exact e2.symm.trans hf')]
        exact e5 ▸ hin
      · rw [if_neg hin] at hr ⊢
        exact hr.symm
  · rw [if_neg hlm]
    have hlm0 : ¬x0.lm = true := by rw [← e1]; exact hlm
    set x1 : Inter := { x0 with g := T.gap i (T.coords (head H.n x)), B := T.slope i (T.coords (head H.n x)) } with hx1
    have hyp : y.p d = if d ∈ x1.inactive then 0 else y.penalty * y.g d := by
      rw [hg, e4]
      conv_lhs => rw [hya]
      unfold after Inter.newPressure
      dsimp only
      rw [if_neg hlm0]
    have hκ : 0 ≤ y.penalty := by rw [e4]; exact hp x0 (List.mem_of_getElem? hx0)
    by_cases hf : y.frictionless = true
    · rw [if_pos hf]
      have hf1 : x1.frictionless = true := e2.symm.trans hf
      by_cases hin : d ∈ x1.inactive
      · rw [if_pos hin] at hyp
        obtain ⟨-, -, k3⟩ := (C35_active_set x1 hf1 d).1 hin
        have hg1 : x1.g d = y.g d := by rw [hg]
        have hnn : 0 ≤ y.g d := by
          by_contra hneg
          exact ht ⟨i, y, d, hy, by simpa using hlm, hf, hd, hyp, hg1 ▸ k3, not_le.1 hneg⟩
        rw [hyp, min_eq_left hnn, mul_zero]
      · rw [if_neg hin] at hyp
        rcases le_total (y.g d) 0 with hle | hge
        · rw [min_eq_right hle]; exact hyp
        · rw [min_eq_left hge, mul_zero]
          have hnn : 0 ≤ y.p d := by rw [hyp]; exact mul_nonneg hκ hge
          by_contra hne
          exact hno ⟨i, y, d, hy, hf, hd, lt_of_le_of_ne hnn (Ne.symm hne), by linarith [show (0 : ℝ) ≤ 1 / 10 ^ 14 by positivity]⟩
    · have hf' : y.frictionless = false := by simpa using hf
      rw [if_neg hf]
      have hin1 : x1.inactive = y.fixedInactive := by
        rw [inactive_tied (by exact e2.symm.trans hf'), e5]
      rw [hyp, hin1]
      split <;> simp

theorem penalty_seen {T : Tribol} {H : Host} {junk : ℕ → ℝ} {points : List (ℕ → ℝ)} {x : ℕ → ℝ} {s : Live} {out : Solved}
    (ho : solvePenalty T H junk points x s = some out) :
    ∃ s1, evaluate T H junk points s = some s1 ∧ residualFn T H junk x s1 = some (out.seen, out.residual) ∧ out.u = head H.n x := by
  unfold solvePenalty at ho
  obtain ⟨s1, h1, h2⟩ := Option.bind_eq_some_iff.1 ho
  obtain ⟨o, h3, h4⟩ := Option.map_eq_some_iff.1 h2
  refine ⟨s1, h1, ?_, ?_⟩
  · rw [h3, ← h4]
  · rw [← h4]

theorem energy_same (T : Tribol) (E : (ℕ → ℝ) → ℝ) {xs ys : List Inter} (h : Same xs ys) (v : ℕ → ℝ) : energy T E xs v = energy T E ys v := by
  unfold energy total
  rw [h.1]
  congr 1
  refine Finset.sum_congr rfl fun i hi => ?_
  have hx := List.getElem?_eq_getElem (h.1 ▸ Finset.mem_range.1 hi : i < xs.length)
  obtain ⟨p, g, B, e⟩ := h.2 i _ hx
  rw [hx, e]
  rfl

theorem noWorse_same {T : Tribol} {xs ys : List Inter} (h : Same xs ys) {u v : ℕ → ℝ} (hw : NoWorse T xs u v) : NoWorse T ys u v := by
  intro i y hy hl d hd
  obtain ⟨x, hx, e1, e2, e3, -, e5⟩ := Same.symm_get h hy
  rw [e2, e5]
  exact hw i x hx (e1 ▸ hl) d (e3 ▸ hd)

theorem minimal_same {T : Tribol} {H : Host} {E : (ℕ → ℝ) → ℝ} {xs ys : List Inter} (h : Same xs ys) {u : ℕ → ℝ} (hm : Minimal T H E ys u) : Minimal T H E xs u := by
  intro v hv hw
  rw [energy_same T E h, energy_same T E h]
  exact hm v hv (noWorse_same h hw)

/-- **C98, minimum of energy** (partial: no accepted pressure pulls at surfaces that do not overlap, and no dof with penalty enforcement overlaps by less than the threshold
of the active set).  The displacement after a step that stopped with residual zero has the least energy. -/
theorem C98_minimum_partial (T : Tribol) (H : Host) (E : (ℕ → ℝ) → ℝ) (junk : ℕ → ℝ) (points : List (ℕ → ℝ)) (x : ℕ → ℝ) (s : Live) (h : Reached s) (hE : Convex H E)
    (hS : Surfaces T H.n s.data.inters) (hp : ∀ y ∈ s.data.inters, 0 ≤ y.penalty) (out : Solved) (ho : solveMultipliers T H junk points x s = some out)
    (hc : Converged H 0 out) (hno : ¬Suction out.seen.data.inters) (ht : ¬Tiny out.seen.data.inters) : Minimal T H E s.data.inters out.u := by
  obtain ⟨out', h1, h2, h3, h4, -⟩ := solve_spec T H junk points x s h
  obtain rfl : out' = out := Option.some.inj (h1.symm.trans ho)
  obtain ⟨s1, a1, a2⟩ := solve_seen ho
  obtain ⟨ops, hops⟩ := h
  obtain ⟨s1', b1, b2, b3, -⟩ := evaluate_spec T H junk points s (hops ▸ inv_run ops)
  obtain rfl : s1' = s1 := Option.some.inj (b1.symm.trans a1)
  obtain ⟨k1, k2⟩ := lawful_of b2 a2 hc (Same.penalty b3 hp) hno ht
  rw [← h2] at k1 k2
  exact minimal_same h4 (minimal_of hE (hS.same h4) (Same.penalty h4 hp) k1 k2)

/-- **C98, the same with penalty enforcement only.** -/
theorem C98_penalty_partial (T : Tribol) (H : Host) (E : (ℕ → ℝ) → ℝ) (junk : ℕ → ℝ) (points : List (ℕ → ℝ)) (x : ℕ → ℝ) (s : Live) (h : Reached s) (hE : Convex H E)
    (hS : Surfaces T H.n s.data.inters) (hp : ∀ y ∈ s.data.inters, 0 ≤ y.penalty) (hl : ∀ y ∈ s.data.inters, y.lm = false) (out : Solved)
    (ho : solvePenalty T H junk points x s = some out) (hc : Converged H 0 out) (hno : ¬Suction out.seen.data.inters) (ht : ¬Tiny out.seen.data.inters) (v : ℕ → ℝ)
    (hv : ∀ k, k < H.n → k ∈ H.ess → v k = out.u k) : energy T E s.data.inters out.u ≤ energy T E s.data.inters v := by
  obtain ⟨s1, a1, a2, a3⟩ := penalty_seen ho
  obtain ⟨ops, hops⟩ := h
  obtain ⟨s1', b1, b2, b3, -⟩ := evaluate_spec T H junk points s (hops ▸ inv_run ops)
  obtain rfl : s1' = s1 := Option.some.inj (b1.symm.trans a1)
  obtain ⟨k1, k2⟩ := lawful_of b2 a2 hc (Same.penalty b3 hp) hno ht
  obtain ⟨s2, r2, c0, -, -, c3, -⟩ := residual_spec T H junk x s1' b2
  have hs2 : s2 = out.seen := congrArg Prod.fst (Option.some.inj (c0.symm.trans a2))
  have h4 : Same s.data.inters out.seen.data.inters := b3.trans (hs2 ▸ c3)
  rw [← a3] at k1 k2
  refine minimal_same h4 (minimal_of hE (hS.same h4) (Same.penalty h4 hp) k1 k2) v hv fun i y hy hlm => ?_
  rw [hl y (List.mem_of_getElem? hy)] at hlm
  cases hlm

/-! ## Pressures that pull -/

/-- The gaps are affine and can be changed one at a time by moving free dofs. -/
def Independent (T : Tribol) (H : Host) (xs : List Inter) : Prop :=
  (∀ (i : ℕ) (x : Inter), xs[i]? = some x → ∀ u v d, d < x.size → T.gap i (T.coords v) d = T.gap i (T.coords u) d + rate T H.n i u d fun j => v j - u j) ∧
  ∀ (u : ℕ → ℝ) (i : ℕ) (x : Inter) (d : ℕ), xs[i]? = some x → d < x.size → ∃ w : ℕ → ℝ, (∀ k, k < H.n → k ∈ H.ess → w k = 0) ∧
    ∀ (i' : ℕ) (x' : Inter) (d' : ℕ), xs[i']? = some x' → d' < x'.size → rate T H.n i' u d' w = if i' = i ∧ d' = d then 1 else 0

theorem rate_smul (T : Tribol) (n i : ℕ) (u : ℕ → ℝ) (d : ℕ) (a : ℝ) (w : ℕ → ℝ) : (rate T n i u d fun j => a * w j) = a * rate T n i u d w := by
  unfold rate
  rw [Finset.mul_sum]
  exact Finset.sum_congr rfl fun j _ => by ring

/-- **C98, exactly when.**  With multipliers only, surfaces whose gaps are independent and a differentiable energy: after a step that stopped with residual zero the displacement
has the least energy if and only if no accepted pressure pulls at surfaces that do not overlap. -/
theorem C98_iff (T : Tribol) (H : Host) (E : (ℕ → ℝ) → ℝ) (junk : ℕ → ℝ) (points : List (ℕ → ℝ)) (x : ℕ → ℝ) (s : Live) (h : Reached s) (hE : Convex H E)
    (hd : ∀ u w : ℕ → ℝ, HasDerivAt (fun t : ℝ => E fun k => u k + t * w k) (∑ k ∈ Finset.range H.n, H.R u k * w k) 0)
    (hS : Surfaces T H.n s.data.inters) (hI : Independent T H s.data.inters) (hp : ∀ y ∈ s.data.inters, 0 ≤ y.penalty) (hl : ∀ y ∈ s.data.inters, y.lm = true)
    (out : Solved) (ho : solveMultipliers T H junk points x s = some out) (hc : Converged H 0 out) :
    Minimal T H E s.data.inters out.u ↔ ¬Suction out.seen.data.inters := by
  have hspec := solve_spec T H junk points x s h
  obtain ⟨out', h1, h2, h3, h4, -, -, -, h8, h9, h10⟩ := hspec
  obtain rfl : out' = out := Option.some.inj (h1.symm.trans ho)
  refine ⟨?_, fun hno => C98_minimum_partial T H E junk points x s h hE hS hp out' ho hc hno ?_⟩
  · rintro hm ⟨i, y, d, hy, hf, hd', hpos, hge⟩
    obtain ⟨x0, hx0, -, -, e3, -, -⟩ := Same.symm_get h4 hy
    obtain ⟨w, hw1, hw2⟩ := hI.2 out'.u i x0 d hx0 (e3 ▸ hd')
    -- the energy decreases along `w`
    have hz : ∀ k, k < H.n → k ∉ H.ess → H.R out'.u k = -contactForce T (T.coords out'.u) out'.seen.data.inters k := by
      intro k hk hess
      have e1 := hc k (by omega)
      have e2 : out'.residual k = 0 := abs_eq_zero.1 (le_antisymm e1 (abs_nonneg _))
      rw [h8 k hk, if_neg hess] at e2
      linarith
    have hslope : ∑ k ∈ Finset.range H.n, H.R out'.u k * w k = -y.p d := by
      have e1 : ∑ k ∈ Finset.range H.n, H.R out'.u k * w k = -∑ k ∈ Finset.range H.n, contactForce T (T.coords out'.u) out'.seen.data.inters k * w k := by
        rw [← Finset.sum_neg_distrib]
        refine Finset.sum_congr rfl fun k hk => ?_
        by_cases he : k ∈ H.ess
        · rw [hw1 k (Finset.mem_range.1 hk) he]; ring
        · rw [hz k (Finset.mem_range.1 hk) he]; ring
      rw [e1, work (hS.same h4) out'.u w]
      congr 1
      have e2 : (total out'.seen.data.inters fun i' x' => ∑ d' ∈ Finset.range x'.size, x'.p d' * rate T H.n i' out'.u d' w) =
          total out'.seen.data.inters fun i' x' => if i' = i then y.p d else 0 := by
        refine total_congr fun i' x' hx' => ?_
        obtain ⟨z, hz', -, -, f3, -, -⟩ := Same.symm_get h4 hx'
        have f4 : ∀ d' ∈ Finset.range x'.size, x'.p d' * rate T H.n i' out'.u d' w = if i' = i ∧ d' = d then x'.p d' else 0 := by
          intro d' hd''
          rw [hw2 i' z d' hz' (f3 ▸ Finset.mem_range.1 hd'')]
          split <;> simp
        rw [Finset.sum_congr rfl f4]
        by_cases hii : i' = i
        · subst hii
          obtain rfl : y = x' := Option.some.inj (hy.symm.trans hx')
          simp [hd']
        · simp [hii]
      rw [e2]
      unfold total
      have hi : i < out'.seen.data.inters.length := (List.getElem?_eq_some_iff.1 hy).1
      rw [Finset.sum_eq_single i]
      · rw [hy]; simp
      · intro j hj hne
        rw [List.getElem?_eq_getElem (Finset.mem_range.1 hj)]
        simp [hne]
      · intro hni
        exact absurd (Finset.mem_range.2 hi) hni
    have hder := hd out'.u w
    rw [hslope] at hder
    have hlim := hder.tendsto_slope_zero_right
    have hge0 : 0 ≤ -y.p d := by
      refine ge_of_tendsto hlim (Filter.eventually_of_mem self_mem_nhdsWithin fun t ht => ?_)
      have ht' : 0 < t := ht
      simp only [zero_add, zero_mul, add_zero, smul_eq_mul]
      refine mul_nonneg (inv_nonneg.2 ht'.le) ?_
      have hmin := hm (fun k => out'.u k + t * w k) (fun k hk he => by rw [hw1 k hk he]; ring) ?_
      · have hzero : ∀ v, (total s.data.inters fun i x => spring x (T.gap i (T.coords v))) = 0 := by
          intro v
          unfold total
          refine Finset.sum_eq_zero fun j hj => ?_
          have hj' := List.getElem?_eq_getElem (Finset.mem_range.1 hj)
          rw [hj']
          simp only [Option.elim_some]
          unfold spring
          rw [if_pos (hl _ (List.mem_of_getElem? hj'))]
        unfold energy at hmin
        rw [hzero, hzero] at hmin
        linarith
      · intro i' x' hx' hlm d' hd''
        have e1 := hI.1 i' x' hx' out'.u (fun k => out'.u k + t * w k) d' hd''
        have e2 : (rate T H.n i' out'.u d' fun j => (out'.u j + t * w j) - out'.u j) = t * if i' = i ∧ d' = d then 1 else 0 := by
          rw [← hw2 i' x' d' hx' hd'', ← rate_smul]
          congr 1
          funext j
          ring
        rw [e2] at e1
        have hgrow : T.gap i' (T.coords out'.u) d' ≤ T.gap i' (T.coords fun k => out'.u k + t * w k) d' := by
          rw [e1]
          split <;> simp [ht'.le]
        refine ⟨fun _ => (min_le_right _ _).trans hgrow, fun hft hni => ?_⟩
        obtain ⟨p, g, B, hy'⟩ := h4.2 i' x' hx'
        obtain ⟨hlt, hr⟩ := h10 i' _ hy' hlm d' hd''
        have hr0 : out'.residual (H.n + (base (out'.seen.data.inters.take i') + d')) = 0 := abs_eq_zero.1 (le_antisymm (hc _ (by omega)) (abs_nonneg _))
        rw [inactive_tied (by exact hft), if_neg hni, (h9 i' _ hy').1] at hr
        have hne : ¬(i' = i ∧ d' = d) := by
          rintro ⟨rfl, rfl⟩
          obtain rfl : y = _ := Option.some.inj (hy.symm.trans hy')
          rw [show ({ x' with p := p, g := g, B := B } : Inter).frictionless = false from hft] at hf
          cases hf
        rw [e1, if_neg hne, ← hr, hr0]
        ring
    linarith
  · rintro ⟨i, y, d, hy, hlm, -⟩
    obtain ⟨x0, hx0, e1, -⟩ := Same.symm_get h4 hy
    rw [e1, hl x0 (List.mem_of_getElem? hx0)] at hlm
    cases hlm

/-! ## Newton's corrections -/

/-- The coupling block times a vector. -/
theorem stack_sum (xs : List Inter) (k : ℕ) (q : ℕ → ℝ) : ∑ l ∈ Finset.range (base xs), stack xs l k * q l =
    total xs fun i x => if x.lm then ∑ d ∈ Finset.range x.size, x.activeB d k * q (base (xs.take i) + d) else 0 := by
  induction xs generalizing q with
  | nil => simp [total, base]
  | cons x xs ih =>
    unfold total
    rw [List.length_cons, Finset.sum_range_succ', base_cons, Finset.sum_range_add]
    have h2 := ih fun l => q (x.num + l)
    unfold total at h2
    have e1 : ∑ l ∈ Finset.range (base xs), stack (x :: xs) (x.num + l) k * q (x.num + l) = ∑ l ∈ Finset.range (base xs), stack xs l k * q (x.num + l) := by
      refine Finset.sum_congr rfl fun l _ => ?_
      congr 1
      rw [stack]
      by_cases hx : x.lm = true
      · have : x.num = x.size := by simp [Inter.num, hx]
        rw [if_pos hx, if_neg (by omega), this, Nat.add_sub_cancel_left]
      · have : x.num = 0 := by simp [Inter.num, hx]
        rw [if_neg hx, this, Nat.zero_add]
    rw [e1, h2, add_comm]
    congr 1
    · refine Finset.sum_congr rfl fun i hi => ?_
      beta_reduce
      rw [List.getElem?_cons_succ, List.take_succ_cons]
      cases xs[i]? with
      | none => rfl
      | some y =>
        simp only [Option.elim_some]
        split
        · exact Finset.sum_congr rfl fun d _ => by rw [base_cons, Nat.add_assoc]
        · rfl
    · rw [List.getElem?_cons_zero]
      simp only [Option.elim_some, List.take_zero]
      by_cases hx : x.lm = true
      · have hn : x.num = x.size := by simp [Inter.num, hx]
        rw [if_pos hx, hn]
        refine Finset.sum_congr rfl fun d hd => ?_
        rw [stack, if_pos hx, if_pos (Finset.mem_range.1 hd)]
        simp [base]
      · have hn : x.num = 0 := by simp [Inter.num, hx]
        rw [if_neg hx, hn]
        simp

/-- Bodies whose forces, and surfaces whose gaps, are affine functions of the displacement. -/
structure Linear (T : Tribol) (H : Host) (xs : List Inter) : Prop where
  body : ∀ u v k, k < H.n → H.R v k = H.R u k + ∑ j ∈ Finset.range H.n, H.K u k j * (v j - u j)
  gap : ∀ (i : ℕ) (x : Inter), xs[i]? = some x → ∀ u v d, d < x.size → T.gap i (T.coords v) d = T.gap i (T.coords u) d + rate T H.n i u d fun j => v j - u j
  slope : ∀ (i : ℕ) (x : Inter), xs[i]? = some x → ∀ u v, T.slope i (T.coords v) = T.slope i (T.coords u)
  force : ∀ (i : ℕ) (x : Inter), xs[i]? = some x → ∀ c p k, k < H.n → T.force i c p k = ∑ d ∈ Finset.range x.size, T.slope i c d k * p d

theorem Linear.same {T : Tribol} {H : Host} {xs ys : List Inter} (hL : Linear T H xs) (h : Same xs ys) : Linear T H ys where
  body := hL.body
  gap i y hy := by
    obtain ⟨x, hx, -, -, e, -, -⟩ := Same.symm_get h hy
    rw [e]
    exact hL.gap i x hx
  slope i y hy := by
    obtain ⟨x, hx, -⟩ := Same.symm_get h hy
    exact hL.slope i x hx
  force i y hy := by
    obtain ⟨x, hx, -, -, e, -, -⟩ := Same.symm_get h hy
    rw [e]
    exact hL.force i x hx

/-- At every frictionless dof the multiplier pushes, or it is zero and the surfaces do not overlap. -/
def Settled (xs : List Inter) : Prop := ∀ y ∈ xs, y.frictionless = true → ∀ d, d < y.size → y.p d < 0 ∨ y.p d = 0 ∧ -(1 / 10 ^ 14) ≤ y.g d

/-- The displacement `u` does not overlap at the dofs without pressure. -/
def StaysOpen (T : Tribol) (xs : List Inter) (u : ℕ → ℝ) : Prop := ∀ (i : ℕ) (y : Inter), xs[i]? = some y → y.frictionless = true → ∀ d, d < y.size → y.p d = 0 →
  -(1 / 10 ^ 14) ≤ T.gap i (T.coords u) d

theorem contactForce_total {T : Tribol} {H : Host} {xs : List Inter} (hL : Linear T H xs) (c : ℕ → ℝ) {k : ℕ} (hk : k < H.n) :
    contactForce T c xs k = total xs fun i x => ∑ d ∈ Finset.range x.size, T.slope i c d k * x.p d := by
  unfold contactForce
  rw [mapIdx_sum]
  exact total_congr fun i x hx => hL.force i x hx c x.p k hk

theorem take_split {xs : List Inter} {i : ℕ} {y : Inter} (hy : xs[i]? = some y) : xs = xs.take i ++ y :: xs.drop (i + 1) := by
  obtain ⟨hlt, e⟩ := List.getElem?_eq_some_iff.1 hy
  rw [← e, List.getElem_cons_drop, List.take_append_drop]

/-- The rows of a correction. -/
theorem correction_rows {H : Host} {x : ℕ → ℝ} {s : Data} (hi : Inv s) {B : Blocks} (hB : gradient H x s = some B) (hl : ∀ y ∈ s.inters, y.lm = true)
    (hT : ∀ y ∈ s.inters, TiedOk y) {r c : ℕ → ℝ} (hr : ∀ k, k < H.n → k ∈ H.ess → r k = 0) (hc : Correction H B s.numDofs r c) :
    (∀ k, k < H.n → k ∈ H.ess → c k = 0) ∧
    (∀ k, k < H.n → k ∉ H.ess → (∑ j ∈ Finset.range H.n, H.K (head H.n x) k j * c j) +
      (total s.inters fun i y => ∑ d ∈ Finset.range y.size, y.activeB d k * c (H.n + (base (s.inters.take i) + d))) = r k) ∧
    ∀ (i : ℕ) (y : Inter), s.inters[i]? = some y → ∀ d, d < y.size → if d ∈ y.inactive then c (H.n + (base (s.inters.take i) + d)) = r (H.n + (base (s.inters.take i) + d))
      else ∑ j ∈ Finset.range H.n, y.B d j * c j = r (H.n + (base (s.inters.take i) + d)) := by
  obtain ⟨b, hb, rfl⟩ := Option.map_eq_some_iff.1 hB
  have hident := fun pre y post d l => identity_block hi b s.inters [] hb (by simp) (fun y hy => Or.inl (hl y hy)) (by simp) hT pre y post d l
  obtain ⟨t, ht, rfl⟩ := Option.map_eq_some_iff.1 hb
  obtain ⟨c1, c2⟩ := hc
  have hess : ∀ k, k < H.n → k ∈ H.ess → c k = 0 := by
    intro k hk he
    have := c1 k hk
    dsimp only at this
    rw [hr k hk he, Finset.sum_eq_single k (fun j _ hj => by rw [if_pos (Or.inl he), if_neg (Ne.symm hj), zero_mul]) (fun hn => absurd (Finset.mem_range.2 hk) hn),
      if_pos (Or.inl he), if_pos rfl, one_mul, Finset.sum_eq_zero fun l _ => by rw [if_pos he, zero_mul], add_zero] at this
    exact this
  have hpen : ∀ i j, penaltyBlock s.inters i j = 0 := by
    intro i j
    unfold penaltyBlock
    rw [List.filter_eq_nil_iff.2 fun y hy => by simp [hl y hy]]
    rfl
  refine ⟨hess, fun k hk he => ?_, fun i y hy d hd => ?_⟩
  · have := c1 k hk
    dsimp only at this
    rw [← this]
    congr 1
    · refine Finset.sum_congr rfl fun j hj => ?_
      by_cases hj' : j ∈ H.ess
      · rw [hess j (Finset.mem_range.1 hj) hj', mul_zero, mul_zero]
      · rw [if_neg (by tauto), hpen, add_zero]
    · have e := stack_sum s.inters k fun l => c (H.n + l)
      rw [hi.num]
      simp only [if_neg he]
      rw [e]
      refine total_congr fun i y hy => ?_
      rw [if_pos (hl y (List.mem_of_getElem? hy))]
  · have hsplit := take_split hy
    have hlm := hl y (List.mem_of_getElem? hy)
    have hlt : base (s.inters.take i) + d < s.numDofs := by
      rw [hi.num]
      conv_rhs => rw [hsplit, base_append, base_cons]
      simp only [Inter.num, hlm, if_true]
      omega
    have hrow := c2 _ hlt
    dsimp only at hrow
    have e1 : ∀ j, stack s.inters (base (s.inters.take i) + d) j = y.activeB d j := by
      intro j
      conv_lhs => rw [hsplit]
      rw [show (List.take i s.inters ++ y :: List.drop (i + 1) s.inters).take i = s.inters.take i by rw [← hsplit]]
      exact stack_eq _ y _ hlm d j hd
    have e2 : ∑ j ∈ Finset.range H.n, (if j ∈ H.ess then 0 else stack s.inters (base (s.inters.take i) + d) j) * c j = ∑ j ∈ Finset.range H.n, y.activeB d j * c j := by
      refine Finset.sum_congr rfl fun j hj => ?_
      by_cases hj' : j ∈ H.ess
      · rw [hess j (Finset.mem_range.1 hj) hj', mul_zero, mul_zero]
      · rw [if_neg hj', e1]
    have e3 : ∀ l, inactiveDiag t (base (s.inters.take i) + d) l = if d ∈ y.inactive ∧ l = base (s.inters.take i) + d then 1 else 0 :=
      fun l => hident _ y _ d l hsplit hlm hd
    rw [e2] at hrow
    simp only [e3] at hrow
    unfold Inter.activeB at hrow
    by_cases hin : d ∈ y.inactive
    · rw [if_pos hin]
      simp only [hin, if_true, true_and, zero_mul, Finset.sum_const_zero, zero_add, ite_mul, one_mul, Finset.sum_ite_eq', Finset.mem_range, hlt] at hrow
      exact hrow
    · rw [if_neg hin]
      simp only [hin, if_false, false_and, zero_mul, Finset.sum_const_zero, add_zero] at hrow
      exact hrow

/-- **C98, one correction.**  Linear bodies and surfaces, multipliers only.  If at the last evaluation every frictionless multiplier pushed or was zero at surfaces that do not
overlap, and the corrected displacement does not overlap where there was no pressure, then the residual at the corrected point is zero. -/
theorem C98_newton (T : Tribol) (H : Host) (junk x : ℕ → ℝ) (s s1 : Live) (h : Inv s.data) (hL : Linear T H s.data.inters) (hl : ∀ y ∈ s.data.inters, y.lm = true)
    (hT : ∀ y ∈ s.data.inters, TiedOk y) (r c : ℕ → ℝ) (B : Blocks) (he : residualFn T H junk x s = some (s1, r)) (hB : gradient H x s1.data = some B)
    (hc : Correction H B s1.data.numDofs r c) (hset : Settled s1.data.inters) (hopen : StaysOpen T s1.data.inters (head H.n fun k => x k - c k)) :
    ∃ s2 r2, residualFn T H junk (fun k => x k - c k) s1 = some (s2, r2) ∧ ∀ k, k < H.n + s2.data.numDofs → r2 k = 0 := by
  obtain ⟨s1', r', b0, b1, b2, b3, b4, b5, b6, b7, b8⟩ := residual_spec T H junk x s h
  obtain ⟨rfl, rfl⟩ : s1' = s1 ∧ r' = r := by
    have := Option.some.inj (b0.symm.trans he)
    exact ⟨congrArg Prod.fst this, congrArg Prod.snd this⟩
  have hl1 : ∀ y ∈ s1'.data.inters, y.lm = true := by
    intro y hy
    obtain ⟨i, hi⟩ := List.mem_iff_getElem?.1 hy
    obtain ⟨z, hz, e, -⟩ := Same.symm_get b3 hi
    rw [e]
    exact hl z (List.mem_of_getElem? hz)
  have hT1 : ∀ y ∈ s1'.data.inters, TiedOk y := by
    intro y hy
    obtain ⟨i, hi⟩ := List.mem_iff_getElem?.1 hy
    obtain ⟨z, hz, -, -, e1, -, e2⟩ := Same.symm_get b3 hi
    have := hT z (List.mem_of_getElem? hz)
    unfold TiedOk at this ⊢
    rw [e1, e2]
    exact this
  obtain ⟨k1, k2, k3⟩ := correction_rows b1 hB hl1 hT1 (fun k hk hess => by rw [b7 k hk, if_pos hess]) hc
  have hL1 := hL.same b3
  set x' : ℕ → ℝ := fun k => x k - c k with hx'
  obtain ⟨s2, r2, d0, d1, d2, d3, d4, d5, d6, d7, d8⟩ := residual_spec T H junk x' s1' b1
  have hL2 := hL1.same d3
  have hdiff : ∀ j ∈ Finset.range H.n, head H.n x' j - head H.n x j = -c j := by
    intro j hj
    unfold head
    rw [if_pos (Finset.mem_range.1 hj), if_pos (Finset.mem_range.1 hj), hx']
    ring
  -- pressures and gaps before and after
  have hpress : ∀ (i : ℕ) (y : Inter), s1'.data.inters[i]? = some y → ∀ d, d < y.size →
      (after T H.n s1'.data.inters x' i y).p d = y.p d - (if d ∈ y.inactive then 0 else c (H.n + (base (s1'.data.inters.take i) + d))) ∧
      (d ∉ y.inactive → T.gap i (T.coords (head H.n x')) d = 0) ∧ (d ∈ y.inactive → d ∈ (after T H.n s1'.data.inters x' i y).inactive) := by
    intro i y hy d hd
    have hlm := hl1 y (List.mem_of_getElem? hy)
    obtain ⟨x0, hx0, e1, e2, e3, -, e5⟩ := Same.symm_get b3 hy
    have hya : y = after T H.n s.data.inters x i x0 := Option.some.inj (hy.symm.trans (b5 i x0 hx0))
    have hg : y.g = T.gap i (T.coords (head H.n x)) := by rw [hya]; rfl
    have hyB : y.B = T.slope i (T.coords (head H.n x)) := by rw [hya]; rfl
    set x1 : Inter := { x0 with g := T.gap i (T.coords (head H.n x)), B := T.slope i (T.coords (head H.n x)) } with hx1
    have hlm0 : x0.lm = true := e1 ▸ hlm
    have hyp : ∀ d, y.p d = if d ∈ x1.inactive then 0 else x (H.n + (base (s1'.data.inters.take i) + d)) := by
      intro d
      conv_lhs => rw [hya]
      rw [b3.base i]
      unfold after Inter.newPressure
      dsimp only
      rw [if_pos hlm0, if_pos hlm0]
    have hgap : d ∉ y.inactive → T.gap i (T.coords (head H.n x')) d = 0 := by
      intro hin
      have hrow := k3 i y hy d hd
      rw [if_neg hin, (b8 i y hy hlm d hd).2, if_neg hin] at hrow
      rw [hL1.gap i y hy (head H.n x) (head H.n x') d hd]
      have : (rate T H.n i (head H.n x) d fun j => head H.n x' j - head H.n x j) = -∑ j ∈ Finset.range H.n, y.B d j * c j := by
        unfold rate
        rw [← Finset.sum_neg_distrib]
        refine Finset.sum_congr rfl fun j hj => ?_
        beta_reduce
        rw [hdiff j hj, hyB]
        ring
      rw [this, hrow, ← hg]
      ring
    set y1 : Inter := { y with g := T.gap i (T.coords (head H.n x')), B := T.slope i (T.coords (head H.n x')) } with hy1
    have hnew : ∀ d, (after T H.n s1'.data.inters x' i y).p d = if d ∈ y1.inactive then 0 else x' (H.n + (base (s1'.data.inters.take i) + d)) := by
      intro d
      unfold after Inter.newPressure
      dsimp only
      rw [if_pos hlm, if_pos hlm]
    by_cases hf : y.frictionless = true
    · have hf1 : x1.frictionless = true := e2 ▸ hf
      by_cases hin : d ∈ y.inactive
      · obtain ⟨-, q2, q3⟩ := (C35_active_set y hf d).1 hin
        have hp0 : y.p d = 0 := by
          rcases hset y (List.mem_of_getElem? hy) hf d hd with hneg | hz
          · linarith
          · exact hz.1
        have hgo := hopen i y hy hf d hd hp0
        have hin1 : d ∈ y1.inactive := (C35_active_set y1 hf d).2 ⟨hd, hp0.ge, hgo⟩
        have hpz : (after T H.n s1'.data.inters x' i y).p d = 0 := by rw [hnew d, if_pos hin1]
        refine ⟨by rw [hpz, if_pos hin, hp0, sub_zero], fun hn => absurd hin hn, fun _ => ?_⟩
        exact (C35_active_set _ (by exact hf) d).2 ⟨hd, hpz.ge, hgo⟩
      · have hneg : y.p d < 0 := by
          rcases hset y (List.mem_of_getElem? hy) hf d hd with hneg | hz
          · exact hneg
          · exact absurd ((C35_active_set y hf d).2 ⟨hd, hz.1.ge, hz.2⟩) hin
        have hin1 : d ∉ y1.inactive := fun hm => by
          have := ((C35_active_set y1 hf d).1 hm).2.1
          exact absurd hneg (not_lt.2 this)
        have hpx : y.p d = x (H.n + (base (s1'.data.inters.take i) + d)) := by
          rw [hyp d, if_neg]
          intro hm
          have := hyp d
          rw [if_pos hm] at this
          linarith
        refine ⟨by rw [hnew d, if_neg hin1, if_neg hin, hpx], hgap, fun hm => absurd hm hin⟩
    · have hf' : y.frictionless = false := by simpa using hf
      have h1 : y1.inactive = y.inactive := by
        rw [inactive_tied hf', inactive_tied (by exact hf')]
      have h0 : x1.inactive = y.inactive := by
        rw [inactive_tied hf', inactive_tied (by exact e2 ▸ hf'), e5]
      refine ⟨?_, hgap, fun hm => ?_⟩
      · rw [hnew d, hyp d, h1, h0]
        by_cases hin : d ∈ y.inactive
        · simp [hin]
        · simp [hin, hx']
      · rw [inactive_tied (by exact hf')]
        rw [inactive_tied hf'] at hm
        exact hm
  refine ⟨s2, r2, d0, fun k hk => ?_⟩
  by_cases hkn : k < H.n
  · rw [d7 k hkn]
    by_cases hess : k ∈ H.ess
    · rw [if_pos hess]
    · rw [if_neg hess, d6, d2, contactForce_total hL2 _ hkn, hL.body (head H.n x) (head H.n x') k hkn]
      have e1 := k2 k hkn hess
      rw [b7 k hkn, if_neg hess, b6, b2, contactForce_total hL1 _ hkn] at e1
      have e2 : ∑ j ∈ Finset.range H.n, H.K (head H.n x) k j * (head H.n x' j - head H.n x j) = -∑ j ∈ Finset.range H.n, H.K (head H.n x) k j * c j := by
        rw [← Finset.sum_neg_distrib]
        refine Finset.sum_congr rfl fun j hj => ?_
        rw [hdiff j hj]
        ring
      have e3 : (total s2.data.inters fun i z => ∑ d ∈ Finset.range z.size, T.slope i (T.coords (head H.n x')) d k * z.p d) +
          (total s1'.data.inters fun i y => ∑ d ∈ Finset.range y.size, y.activeB d k * c (H.n + (base (s1'.data.inters.take i) + d))) =
          total s1'.data.inters fun i y => ∑ d ∈ Finset.range y.size, T.slope i (T.coords (head H.n x)) d k * y.p d := by
        have e4 : (total s2.data.inters fun i z => ∑ d ∈ Finset.range z.size, T.slope i (T.coords (head H.n x')) d k * z.p d) =
            total s1'.data.inters fun i y => ∑ d ∈ Finset.range y.size, T.slope i (T.coords (head H.n x)) d k * (after T H.n s1'.data.inters x' i y).p d := by
          unfold total
          rw [← d3.1]
          refine Finset.sum_congr rfl fun i hi => ?_
          have hy := List.getElem?_eq_getElem (Finset.mem_range.1 hi)
          rw [d5 i _ hy, hy]
          simp only [Option.elim_some]
          rw [hL1.slope i _ hy (head H.n x) (head H.n x')]
          rfl
        rw [e4, total_add]
        refine total_congr fun i y hy => ?_
        rw [← Finset.sum_add_distrib]
        refine Finset.sum_congr rfl fun d hd => ?_
        obtain ⟨x0, hx0, -⟩ := Same.symm_get b3 hy
        have hya : y = after T H.n s.data.inters x i x0 := Option.some.inj (hy.symm.trans (b5 i x0 hx0))
        have hyB : y.B = T.slope i (T.coords (head H.n x)) := by rw [hya]; rfl
        rw [(hpress i y hy d (Finset.mem_range.1 hd)).1]
        unfold Inter.activeB
        rw [hyB]
        split <;> ring
      rw [e2]
      linarith
  · -- a gap row
    have hfind : ∀ (xs : List Inter) (l : ℕ), (∀ y ∈ xs, y.lm = true) → l < base xs → ∃ (i : ℕ) (y : Inter) (d : ℕ), xs[i]? = some y ∧ d < y.size ∧ l = base (xs.take i) + d := by
      intro xs
      induction xs with
      | nil => intro l _ hlt; simp [base] at hlt
      | cons z zs ih =>
        intro l hall hlt
        have hz : z.num = z.size := by simp [Inter.num, hall z (by simp)]
        rw [base_cons, hz] at hlt
        by_cases hlz : l < z.size
        · exact ⟨0, z, l, rfl, hlz, by simp [base]⟩
        · obtain ⟨i, y, d, q1, q2, q3⟩ := ih (l - z.size) (fun y hy => hall y (by simp [hy])) (by omega)
          refine ⟨i + 1, y, d, by rw [List.getElem?_cons_succ]; exact q1, q2, ?_⟩
          rw [List.take_succ_cons, base_cons, hz]
          omega
    have hl2 : ∀ y ∈ s2.data.inters, y.lm = true := by
      intro y hy
      obtain ⟨i, hi⟩ := List.mem_iff_getElem?.1 hy
      obtain ⟨z, hz, e, -⟩ := Same.symm_get d3 hi
      rw [e]
      exact hl1 z (List.mem_of_getElem? hz)
    obtain ⟨i, z, d, q1, q2, q3⟩ := hfind s2.data.inters (k - H.n) hl2 (by rw [← d1.num]; omega)
    obtain ⟨y, hy, -, -, f3, -, -⟩ := Same.symm_get d3 q1
    have hza : z = after T H.n s1'.data.inters x' i y := Option.some.inj (q1.symm.trans (d5 i y hy))
    obtain ⟨-, g2, g3⟩ := hpress i y hy d (f3 ▸ q2)
    rw [show k = H.n + (base (s2.data.inters.take i) + d) by omega, (d8 i z q1 (hl2 z (List.mem_of_getElem? q1)) d q2).2]
    by_cases hin : d ∈ y.inactive
    · rw [if_pos]
      rw [hza]
      exact g3 hin
    · split
      · rfl
      · rw [hza]
        exact g2 hin

/-- **C98, tied surfaces.**  If all interactions are tied, one correction from any point gives the residual zero. -/
theorem C98_tied (T : Tribol) (H : Host) (junk x : ℕ → ℝ) (s s1 : Live) (h : Inv s.data) (hL : Linear T H s.data.inters)
    (hl : ∀ y ∈ s.data.inters, y.lm = true ∧ y.frictionless = false) (hT : ∀ y ∈ s.data.inters, TiedOk y) (r c : ℕ → ℝ) (B : Blocks)
    (he : residualFn T H junk x s = some (s1, r)) (hB : gradient H x s1.data = some B) (hc : Correction H B s1.data.numDofs r c) :
    ∃ s2 r2, residualFn T H junk (fun k => x k - c k) s1 = some (s2, r2) ∧ ∀ k, k < H.n + s2.data.numDofs → r2 k = 0 := by
  obtain ⟨s1', r', b0, b1, b2, b3, -⟩ := residual_spec T H junk x s h
  obtain rfl : s1' = s1 := congrArg Prod.fst (Option.some.inj (b0.symm.trans he))
  have hall : ∀ y ∈ s1'.data.inters, y.frictionless = false := by
    intro y hy
    obtain ⟨i, hi⟩ := List.mem_iff_getElem?.1 hy
    obtain ⟨z, hz, -, e, -⟩ := Same.symm_get b3 hi
    rw [e]
    exact (hl z (List.mem_of_getElem? hz)).2
  refine C98_newton T H junk x s s1' h hL (fun y hy => (hl y hy).1) hT r c B he hB hc ?_ ?_
  · intro y hy hf
    rw [hall y hy] at hf
    cases hf
  · intro i y hy hf
    rw [hall y (List.mem_of_getElem? hy)] at hf
    cases hf

/-! ## The linear systems have solutions -/

/-- Row `k` of the linear system. -/
def row (n m : ℕ) (b : Blocks) (c : ℕ → ℝ) (k : ℕ) : ℝ :=
  if k < n then (∑ j ∈ Finset.range n, b.J00 k j * c j) + ∑ l ∈ Finset.range m, b.J01 k l * c (n + l)
  else (∑ j ∈ Finset.range n, b.J10 (k - n) j * c j) + ∑ l ∈ Finset.range m, b.J11 (k - n) l * c (n + l)

theorem correction_iff {H : Host} {b : Blocks} {m : ℕ} {r c : ℕ → ℝ} : Correction H b m r c ↔ ∀ k, k < H.n + m → row H.n m b c k = r k := by
  unfold Correction row
  constructor
  · rintro ⟨h1, h2⟩ k hk
    by_cases hn : k < H.n
    · rw [if_pos hn]; exact h1 k hn
    · rw [if_neg hn, h2 (k - H.n) (by omega), show H.n + (k - H.n) = k by omega]
  · intro h
    refine ⟨fun k hk => ?_, fun k hk => ?_⟩
    · have := h k (by omega)
      rwa [if_pos hk] at this
    · have := h (H.n + k) (by omega)
      rwa [if_neg (by omega), Nat.add_sub_cancel_left] at this

/-- A vector of finite length as a function on all indices. -/
def ext {N : ℕ} (c : Fin N → ℝ) (k : ℕ) : ℝ := if h : k < N then c ⟨k, h⟩ else 0

/-- The linear system as a linear map. -/
def systemMap (n m : ℕ) (b : Blocks) : (Fin (n + m) → ℝ) →ₗ[ℝ] (Fin (n + m) → ℝ) where
  toFun c k := row n m b (ext c) k
  map_add' c c' := by
    funext k
    have e : ∀ j, ext (c + c') j = ext c j + ext c' j := fun j => by unfold ext; split <;> simp
    simp only [row, e, Pi.add_apply, mul_add, Finset.sum_add_distrib]
    split <;> ring
  map_smul' a c := by
    funext k
    have e : ∀ j, ext (a • c) j = a * ext c j := fun j => by unfold ext; split <;> simp
    simp only [row, e, Pi.smul_apply, smul_eq_mul, RingHom.id_apply]
    split <;> rw [mul_add, Finset.mul_sum, Finset.mul_sum] <;> congr 1 <;> exact Finset.sum_congr rfl fun j _ => by ring

theorem row_congr {n m : ℕ} {b : Blocks} {c c' : ℕ → ℝ} (h : ∀ k, k < n + m → c k = c' k) (k : ℕ) : row n m b c k = row n m b c' k := by
  unfold row
  have e1 : ∀ A : ℕ → ℝ, ∑ j ∈ Finset.range n, A j * c j = ∑ j ∈ Finset.range n, A j * c' j := fun A =>
    Finset.sum_congr rfl fun j hj => by rw [h j (by have := Finset.mem_range.1 hj; omega)]
  have e2 : ∀ A : ℕ → ℝ, ∑ l ∈ Finset.range m, A l * c (n + l) = ∑ l ∈ Finset.range m, A l * c' (n + l) := fun A =>
    Finset.sum_congr rfl fun l hl => by rw [h (n + l) (by have := Finset.mem_range.1 hl; omega)]
  split <;> rw [e1, e2]

theorem position {xs : List Inter} (hall : ∀ y ∈ xs, y.lm = true) {l : ℕ} (hlt : l < base xs) :
    ∃ (i : ℕ) (y : Inter) (d : ℕ), xs[i]? = some y ∧ d < y.size ∧ l = base (xs.take i) + d := by
  induction xs generalizing l with
  | nil => simp [base] at hlt
  | cons z zs ih =>
    have hz : z.num = z.size := by simp [Inter.num, hall z (by simp)]
    rw [base_cons, hz] at hlt
    by_cases hlz : l < z.size
    · exact ⟨0, z, l, rfl, hlz, by simp [base]⟩
    · obtain ⟨i, y, d, q1, q2, q3⟩ := ih (fun y hy => hall y (by simp [hy])) (l := l - z.size) (by omega)
      refine ⟨i + 1, y, d, by rw [List.getElem?_cons_succ]; exact q1, q2, ?_⟩
      rw [List.take_succ_cons, base_cons, hz]
      omega

/-- The tangent resists the free motions that keep the gaps at the active dofs. -/
def Stiff (H : Host) (x : ℕ → ℝ) (xs : List Inter) : Prop := ∀ w : ℕ → ℝ, (∀ k, k < H.n → k ∈ H.ess → w k = 0) →
  (∀ (i : ℕ) (y : Inter) (d : ℕ), xs[i]? = some y → d < y.size → d ∉ y.inactive → ∑ j ∈ Finset.range H.n, y.B d j * w j = 0) →
  ∑ k ∈ Finset.range H.n, (∑ j ∈ Finset.range H.n, H.K (head H.n x) k j * w j) * w k ≤ 0 → ∀ k, k < H.n → w k = 0

/-- The gaps at the active dofs can be changed one at a time by moving free dofs. -/
def Free (H : Host) (xs : List Inter) : Prop := ∀ (i : ℕ) (y : Inter) (d : ℕ), xs[i]? = some y → d < y.size → d ∉ y.inactive →
  ∃ w : ℕ → ℝ, (∀ k, k < H.n → k ∈ H.ess → w k = 0) ∧
    ∀ (i' : ℕ) (y' : Inter) (d' : ℕ), xs[i']? = some y' → d' < y'.size → d' ∉ y'.inactive → ∑ j ∈ Finset.range H.n, y'.B d' j * w j = if i' = i ∧ d' = d then 1 else 0

/-- The coupling tested with a motion. -/
theorem coupling (n : ℕ) (xs : List Inter) (q w : ℕ → ℝ) :
    ∑ k ∈ Finset.range n, (total xs fun i y => ∑ d ∈ Finset.range y.size, y.activeB d k * q (base (xs.take i) + d)) * w k =
    total xs fun i y => ∑ d ∈ Finset.range y.size, q (base (xs.take i) + d) * ∑ k ∈ Finset.range n, y.activeB d k * w k := by
  unfold total
  simp only [Finset.sum_mul]
  rw [Finset.sum_comm]
  refine Finset.sum_congr rfl fun i hi => ?_
  rw [List.getElem?_eq_getElem (Finset.mem_range.1 hi)]
  simp only [Option.elim_some, Finset.sum_mul, Finset.mul_sum]
  rw [Finset.sum_comm]
  exact Finset.sum_congr rfl fun d _ => Finset.sum_congr rfl fun k _ => by ring

/-- **C98, solvable.**  With multipliers only, a tangent that resists and independent gaps, the linear system of an iteration has one solution for every right hand side. -/
theorem C98_solvable {H : Host} {x : ℕ → ℝ} {s : Data} (hi : Inv s) {B : Blocks} (hB : gradient H x s = some B) (hl : ∀ y ∈ s.inters, y.lm = true)
    (hT : ∀ y ∈ s.inters, TiedOk y) (hK : Stiff H x s.inters) (hF : Free H s.inters) (r : ℕ → ℝ) :
    ∃ c, Correction H B s.numDofs r c ∧ ∀ c', Correction H B s.numDofs r c' → ∀ k, k < H.n + s.numDofs → c' k = c k := by
  have kernel : ∀ c, Correction H B s.numDofs (fun _ => 0) c → ∀ k, k < H.n + s.numDofs → c k = 0 := by
    intro c hc
    obtain ⟨k1, k2, k3⟩ := correction_rows hi hB hl hT (fun _ _ _ => rfl) hc
    have hact : ∀ (i : ℕ) (y : Inter) (d : ℕ), s.inters[i]? = some y → d < y.size → d ∉ y.inactive → ∑ j ∈ Finset.range H.n, y.B d j * c j = 0 := by
      intro i y d hy hd hin
      have := k3 i y hy d hd
      rwa [if_neg hin] at this
    have hsum : ∀ w : ℕ → ℝ, (∀ k, k < H.n → k ∈ H.ess → w k = 0) → (∑ k ∈ Finset.range H.n, (∑ j ∈ Finset.range H.n, H.K (head H.n x) k j * c j) * w k) +
        (total s.inters fun i y => ∑ d ∈ Finset.range y.size, c (H.n + (base (s.inters.take i) + d)) * ∑ k ∈ Finset.range H.n, y.activeB d k * w k) = 0 := by
      intro w hw
      rw [← coupling H.n s.inters (fun l => c (H.n + l)) w, ← Finset.sum_add_distrib]
      refine Finset.sum_eq_zero fun k hk => ?_
      have hk' := Finset.mem_range.1 hk
      by_cases he : k ∈ H.ess
      · rw [hw k hk' he]; ring
      · rw [← add_mul, k2 k hk' he, zero_mul]
    have hu : ∀ k, k < H.n → c k = 0 := by
      refine hK c k1 hact ?_
      have := hsum c k1
      have hz : (total s.inters fun i y => ∑ d ∈ Finset.range y.size, c (H.n + (base (s.inters.take i) + d)) * ∑ k ∈ Finset.range H.n, y.activeB d k * c k) = 0 := by
        unfold total
        refine Finset.sum_eq_zero fun i hi' => ?_
        have hy := List.getElem?_eq_getElem (Finset.mem_range.1 hi')
        rw [hy]
        refine Finset.sum_eq_zero fun d hd => ?_
        unfold Inter.activeB
        by_cases hin : d ∈ (s.inters[i]'(Finset.mem_range.1 hi')).inactive
        · simp [hin]
        · simp only [if_neg hin]
          rw [hact i _ d hy (Finset.mem_range.1 hd) hin, mul_zero]
      rw [hz, add_zero] at this
      exact this.le
    have hp : ∀ (i : ℕ) (y : Inter), s.inters[i]? = some y → ∀ d, d < y.size → c (H.n + (base (s.inters.take i) + d)) = 0 := by
      intro i y hy d hd
      by_cases hin : d ∈ y.inactive
      · have := k3 i y hy d hd
        rwa [if_pos hin] at this
      · obtain ⟨w, w1, w2⟩ := hF i y d hy hd hin
        have := hsum w w1
        rw [Finset.sum_eq_zero fun k hk => by
          rw [Finset.sum_eq_zero fun j hj => by rw [hu j (Finset.mem_range.1 hj), mul_zero], zero_mul], zero_add] at this
        rw [← this]
        unfold total
        have hlen : i < s.inters.length := (List.getElem?_eq_some_iff.1 hy).1
        symm
        rw [Finset.sum_eq_single i]
        · rw [hy]
          simp only [Option.elim_some]
          rw [Finset.sum_eq_single d]
          · unfold Inter.activeB
            simp only [if_neg hin]
            rw [w2 i y d hy hd hin, if_pos ⟨rfl, rfl⟩, mul_one]
          · intro d' hd' hne
            unfold Inter.activeB
            by_cases hin' : d' ∈ y.inactive
            · simp [hin']
            · simp only [if_neg hin']
              rw [w2 i y d' hy (Finset.mem_range.1 hd') hin', if_neg (by tauto), mul_zero]
          · intro hn
            exact absurd (Finset.mem_range.2 hd) hn
        · intro i' hi' hne
          have hy' := List.getElem?_eq_getElem (Finset.mem_range.1 hi')
          rw [hy']
          refine Finset.sum_eq_zero fun d' hd' => ?_
          unfold Inter.activeB
          by_cases hin' : d' ∈ (s.inters[i']'(Finset.mem_range.1 hi')).inactive
          · simp [hin']
          · simp only [if_neg hin']
            rw [w2 i' _ d' hy' (Finset.mem_range.1 hd') hin', if_neg (by tauto), mul_zero]
        · intro hn
          exact absurd (Finset.mem_range.2 hlen) hn
    intro k hk
    by_cases hkn : k < H.n
    · exact hu k hkn
    · obtain ⟨i, y, d, q1, q2, q3⟩ := position hl (l := k - H.n) (by rw [← hi.num]; omega)
      rw [show k = H.n + (base (s.inters.take i) + d) by omega]
      exact hp i y q1 d q2
  have hinj : Function.Injective (systemMap H.n s.numDofs B) := by
    rw [← LinearMap.ker_eq_bot, LinearMap.ker_eq_bot']
    intro c hc
    funext k
    have hcor : Correction H B s.numDofs (fun _ => 0) (ext c) := correction_iff.2 fun j hj => congrFun hc ⟨j, hj⟩
    have := kernel (ext c) hcor k k.2
    unfold ext at this
    rwa [dif_pos k.2] at this
  obtain ⟨c, hc⟩ := (LinearMap.injective_iff_surjective.1 hinj) fun k => r k
  have hcor : Correction H B s.numDofs r (ext c) := correction_iff.2 fun j hj => congrFun hc ⟨j, hj⟩
  refine ⟨ext c, hcor, fun c' hc' k hk => ?_⟩
  have e : systemMap H.n s.numDofs B (fun j => c' j) = systemMap H.n s.numDofs B c := by
    rw [hc]
    funext j
    have h1 := correction_iff.1 hc' j j.2
    rw [← h1]
    exact row_congr (fun l hl' => by unfold ext; rw [dif_pos hl']) j
  have := congrFun (hinj e) ⟨k, hk⟩
  unfold ext
  rw [dif_pos hk]
  exact this

/-! ## Surfaces that come into contact -/

/-- **C98, arrival, refuted.**  All interactions are frictionless with multipliers and hold no compressive pressure; the displacement of the point `x` does not overlap.  Then the
multipliers of `x` do not count, however often the residual is evaluated there: its value is the force of the body alone.  A solution of the contact problem is
therefore not accepted when the surfaces arrive at it, unless it needs no contact force. -/
theorem C98_arrival_wrong (T : Tribol) (H : Host) (junk x : ℕ → ℝ) (s : Live) (h : Inv s.data) (hS : Surfaces T H.n s.data.inters)
    (hl : ∀ y ∈ s.data.inters, y.lm = true ∧ y.frictionless = true ∧ ∀ d, d < y.size → 0 ≤ y.p d)
    (hg : ∀ (i : ℕ) (y : Inter), s.data.inters[i]? = some y → ∀ d, d < y.size → -(1 / 10 ^ 14) ≤ T.gap i (T.coords (head H.n x)) d) (m : ℕ) :
    ∃ s1 s2 r, evaluate T H junk (List.replicate m x) s = some s1 ∧ residualFn T H junk x s1 = some (s2, r) ∧ ∀ k, k < H.n → k ∉ H.ess → r k = H.R (head H.n x) k := by
  induction m generalizing s with
  | zero =>
    obtain ⟨s2, r, b0, b1, b2, b3, b4, b5, b6, b7, b8⟩ := residual_spec T H junk x s h
    refine ⟨s, s2, r, rfl, b0, fun k hk he => ?_⟩
    rw [b7 k hk, if_neg he, b6, b2]
    unfold contactForce
    rw [mapIdx_sum]
    have : (total s2.data.inters fun i y => T.force i (T.coords (head H.n x)) y.p k) = total s2.data.inters fun _ _ => 0 := by
      refine total_congr fun i y hy => ?_
      obtain ⟨x0, hx0, e1, e2, e3, -, -⟩ := Same.symm_get b3 hy
      obtain ⟨l1, l2, l3⟩ := hl x0 (List.mem_of_getElem? hx0)
      rw [(hS.same b3).force i y hy _ _ k hk]
      refine Finset.sum_eq_zero fun d hd => ?_
      have hd' : d < x0.size := e3 ▸ Finset.mem_range.1 hd
      have hya : y = after T H.n s.data.inters x i x0 := Option.some.inj (hy.symm.trans (b5 i x0 hx0))
      have hp : y.p d = 0 := by
        rw [hya]
        unfold after Inter.newPressure
        dsimp only
        rw [if_pos]
        exact (C35_active_set _ (by exact l2) d).2 ⟨hd', l3 d hd', hg i x0 hx0 d hd'⟩
      rw [hp, mul_zero]
    rw [this]
    have : (total s2.data.inters fun _ _ => (0 : ℝ)) = 0 := by
      unfold total
      refine Finset.sum_eq_zero fun i hi => ?_
      rw [List.getElem?_eq_getElem (Finset.mem_range.1 hi)]
      rfl
    rw [this, add_zero]
  | succ m ih =>
    obtain ⟨s2, r, b0, b1, b2, b3, b4, b5, b6, b7, b8⟩ := residual_spec T H junk x s h
    obtain ⟨t1, t2, r', c0, c1, c2⟩ := ih s2 b1 (hS.same b3) (by
        intro y hy
        obtain ⟨i, hi⟩ := List.mem_iff_getElem?.1 hy
        obtain ⟨x0, hx0, e1, e2, e3, -, -⟩ := Same.symm_get b3 hi
        obtain ⟨l1, l2, l3⟩ := hl x0 (List.mem_of_getElem? hx0)
        refine ⟨e1.trans l1, e2.trans l2, fun d hd => ?_⟩
        have hya : y = after T H.n s.data.inters x i x0 := Option.some.inj (hi.symm.trans (b5 i x0 hx0))
        have hp : y.p d = 0 := by
          rw [hya]
          unfold after Inter.newPressure
          dsimp only
          rw [if_pos]
          exact (C35_active_set _ (by exact l2) d).2 ⟨e3 ▸ hd, l3 d (e3 ▸ hd), hg i x0 hx0 d (e3 ▸ hd)⟩
        exact hp.ge) (by
        intro i y hy d hd
        obtain ⟨x0, hx0, -, -, e3, -, -⟩ := Same.symm_get b3 hy
        exact hg i x0 hx0 d (e3 ▸ hd))
    refine ⟨t1, t2, r', ?_, c1, c2⟩
    rw [List.replicate_succ, evaluate, b0, Option.bind_some]
    exact c0

/-- One iteration of Newton's method with a full correction. -/
def Iteration (T : Tribol) (H : Host) (junk : ℕ → ℝ) (s : Live) (x : ℕ → ℝ) (s' : Live) (x' : ℕ → ℝ) : Prop :=
  ∃ r B c, residualFn T H junk x s = some (s', r) ∧ gradient H x s'.data = some B ∧ Correction H B s'.data.numDofs r c ∧ x' = fun k => x k - c k

/-- State with the one interaction of the block at the wall. -/
def AtWall (s : Live) (p : ℝ) : Prop := Inv s.data ∧ ∃ y, s.data.inters = [y] ∧ y.lm = true ∧ y.frictionless = true ∧ y.size = 1 ∧ y.fixedInactive = [] ∧ y.p 0 = p

theorem wall_surfaces (k b : ℝ) (y : Inter) (h : y.size = 1) : Surfaces wall (block k b).n [y] := by
  have hget : ∀ (i : ℕ) (x : Inter), [y][i]? = some x → x = y := by
    intro i x hx
    have := List.mem_of_getElem? hx
    simpa using this
  refine ⟨fun i x hx c p j hj => ?_, fun i x hx u v d hd => ?_, fun i x hx _ u v d hd => ?_⟩
  · rw [hget i x hx, h]
    obtain rfl : j = 0 := by simpa [block] using hj
    simp [wall]
  · simp [rate, wall, block]
  · simp [rate, wall, block]

theorem wall_linear (k b : ℝ) (y : Inter) (h : y.size = 1) : Linear wall (block k b) [y] where
  body u v j hj := by
    obtain rfl : j = 0 := by simpa [block] using hj
    simp [block]
    ring
  gap i x hx u v d hd := by simp [rate, wall, block]
  slope i x hx u v := rfl
  force := (wall_surfaces k b y h).force

/-- The residual of the block at the wall. -/
theorem wall_residual (k b : ℝ) (junk x : ℕ → ℝ) (s s' : Live) (r : ℕ → ℝ) (p : ℝ) (h : AtWall s p) (he : residualFn wall (block k b) junk x s = some (s', r)) :
    ∃ q, AtWall s' q ∧ q = (if 0 ≤ p ∧ -(1 / 10 ^ 14) ≤ x 0 then 0 else x 1) ∧ r 0 = k * x 0 - b + q ∧
      (r 1 = if 0 ≤ q ∧ -(1 / 10 ^ 14) ≤ x 0 then 0 else x 0) ∧ s'.data.numDofs = 1 ∧ ∃ y, s'.data.inters = [y] ∧ y.size = 1 ∧ y.g 0 = x 0 ∧ (∀ j, y.B 0 j = if j = 0 then 1 else 0) := by
  obtain ⟨hinv, y, hy, hl, hf, h1, hfi, hp⟩ := h
  obtain ⟨s2, r2, b0, b1, b2, b3, b4, b5, b6, b7, b8⟩ := residual_spec wall (block k b) junk x s hinv
  obtain ⟨rfl, rfl⟩ : s2 = s' ∧ r2 = r := by
    have := Option.some.inj (b0.symm.trans he)
    exact ⟨congrArg Prod.fst this, congrArg Prod.snd this⟩
  have hget := b5 0 y (by rw [hy]; rfl)
  set z := after wall 1 s.data.inters x 0 y with hz
  have hlen : s2.data.inters.length = 1 := by rw [← b3.1, hy]; rfl
  have hone : s2.data.inters = [z] := by
    obtain ⟨w, hw⟩ := List.length_eq_one_iff.1 hlen
    have hget' : s2.data.inters[0]? = some z := hget
    rw [hw] at hget' ⊢
    simpa using hget'
  have hg : z.g 0 = x 0 := by
    change head 1 x 0 = x 0
    simp [head]
  have hq : z.p 0 = if 0 ≤ p ∧ -(1 / 10 ^ 14) ≤ x 0 then 0 else x 1 := by
    rw [hz]
    unfold after Inter.newPressure
    dsimp only
    rw [if_pos hl, if_pos hl, List.take_zero]
    have : (0 ∈ ({ y with g := wall.gap 0 (wall.coords (head 1 x)), B := wall.slope 0 (wall.coords (head 1 x)) } : Inter).inactive) ↔
        (0 ≤ p ∧ -(1 / 10 ^ 14) ≤ x 0) := by
      rw [C35_active_set _ (by exact hf), h1, hp]
      simp [wall, head]
    simp only [this]
    rfl
  refine ⟨z.p 0, ⟨b1, z, hone, hl, hf, h1, hfi, rfl⟩, hq, ?_, ?_, ?_, z, hone, h1, hg, fun j => rfl⟩
  · rw [b7 0 (by simp [block]), b6, hone]
    simp [block, contactForce, wall, head]
  · obtain ⟨-, e⟩ := b8 0 z (by rw [hone]; rfl) hl 0 (by rw [show z.size = 1 from h1]; norm_num)
    rw [List.take_zero] at e
    change r2 (1 + (0 + 0)) = _ at e
    rw [show r2 1 = r2 (1 + (0 + 0)) from rfl, e, hg]
    have : 0 ∈ z.inactive ↔ (0 ≤ z.p 0 ∧ -(1 / 10 ^ 14) ≤ x 0) := by
      rw [C35_active_set z (by exact hf), show z.size = 1 from h1, hg]
      simp
    simp only [this]
  · rw [b1.num, hone, base_cons]
    simp [Inter.num, show z.lm = true from hl, show z.size = 1 from h1, base]

/-- An iteration of the block at the wall. -/
theorem wall_iteration (k b : ℝ) (hk : k ≠ 0) (junk x x' : ℕ → ℝ) (s s' : Live) (p : ℝ) (h : AtWall s p) (hi : Iteration wall (block k b) junk s x s' x') :
    ∃ q, AtWall s' q ∧ q = (if 0 ≤ p ∧ -(1 / 10 ^ 14) ≤ x 0 then 0 else x 1) ∧
      if 0 ≤ q ∧ -(1 / 10 ^ 14) ≤ x 0 then x' 0 = (b - q) / k ∧ x' 1 = x 1 else x' 0 = 0 ∧ x' 1 = b + (x 1 - q) := by
  obtain ⟨r, B, c, h1, h2, h3, rfl⟩ := hi
  obtain ⟨q, a1, a2, a3, a4, a5, y, a6, a7, a8, a9⟩ := wall_residual k b junk x s s' r p h h1
  refine ⟨q, a1, a2, ?_⟩
  obtain ⟨hinv, y', hy', hl, hf, hs, hfi, hp⟩ := a1
  obtain rfl : y' = y := by
    rw [a6] at hy'
    simpa using hy'.symm
  obtain ⟨-, k2, k3⟩ := correction_rows hinv h2 (by rw [a6]; simpa using hl) (by rw [a6]; simp [TiedOk, hfi]) (fun j _ hj => by simp [block] at hj) h3
  have k2 := k2 0 (by simp [block]) (by simp [block])
  have k3 := k3 0 y' (by rw [a6]; rfl) 0 (by rw [hs]; norm_num)
  have hin : 0 ∈ y'.inactive ↔ (0 ≤ q ∧ -(1 / 10 ^ 14) ≤ x 0) := by
    rw [C35_active_set y' hf, hs, a8, hp]
    simp
  have e1 : (total s'.data.inters fun i y => ∑ d ∈ Finset.range y.size, y.activeB d 0 * c ((block k b).n + (base (s'.data.inters.take i) + d))) =
      (if 0 ≤ q ∧ -(1 / 10 ^ 14) ≤ x 0 then 0 else 1) * c 1 := by
    rw [a6]
    unfold total
    simp only [List.length_singleton, Finset.sum_range_one, List.getElem?_cons_zero, Option.elim_some, hs, List.take_zero]
    unfold Inter.activeB
    simp only [hin, a9]
    rfl
  rw [e1, a3] at k2
  have e2 : ∑ j ∈ Finset.range (block k b).n, (block k b).K (head (block k b).n x) 0 j * c j = k * c 0 := by simp [block]
  rw [e2] at k2
  have e3 : ∑ j ∈ Finset.range (block k b).n, y'.B 0 j * c j = c 0 := by simp [block, a9]
  rw [e3, List.take_zero] at k3
  change if 0 ∈ y'.inactive then c 1 = r 1 else c 0 = r 1 at k3
  simp only [hin] at k3
  rw [a4] at k3
  by_cases hA : 0 ≤ q ∧ -(1 / 10 ^ 14) ≤ x 0
  · simp only [if_pos hA] at k2 k3 ⊢
    rw [zero_mul, add_zero] at k2
    refine ⟨?_, by rw [k3, sub_zero]⟩
    rw [eq_div_iff hk]
    linarith
  · simp only [if_neg hA] at k2 k3 ⊢
    rw [one_mul] at k2
    refine ⟨by rw [k3, sub_self], ?_⟩
    rw [k3] at k2
    linarith

/-- **C98, a block that is pushed to a wall.**  It starts away from the wall without pressure; the load pushes it `> 10⁻¹⁴` into the wall.  Newton's method is at the solution
(displacement zero, pressure `b`) after two corrections, does not accept it, leaves it and is back after two more; then the residual is zero. -/
theorem C98_touch (k b u0 : ℝ) (hk : 0 < k) (hb : b / k < -(1 / 10 ^ 14)) (hu : 0 ≤ u0) (junk : ℕ → ℝ) (s0 s1 s2 s3 s4 : Live) (x1 x2 x3 x4 : ℕ → ℝ) (h0 : AtWall s0 0)
    (i1 : Iteration wall (block k b) junk s0 (point u0 0) s1 x1) (i2 : Iteration wall (block k b) junk s1 x1 s2 x2) (i3 : Iteration wall (block k b) junk s2 x2 s3 x3)
    (i4 : Iteration wall (block k b) junk s3 x3 s4 x4) :
    (x2 0 = 0 ∧ x2 1 = b) ∧ (∃ s r, residualFn wall (block k b) junk x2 s2 = some (s, r) ∧ r 0 = -b) ∧ (x3 0 = b / k) ∧ (x4 0 = 0 ∧ x4 1 = b) ∧
      ∃ s r, residualFn wall (block k b) junk x4 s4 = some (s, r) ∧ s.data.numDofs = 1 ∧ ∀ j, j < 2 → r j = 0 := by
  have hneg : ¬-(1 / 10 ^ 14) ≤ b / k := not_le.2 hb
  have ht : (0 : ℝ) < 1 / 10 ^ 14 := by positivity
  have hb0 : b < 0 := by
    have : b / k < 0 := by linarith
    exact (div_neg_iff.1 this).elim (fun h => absurd h.2 (not_lt.2 hk.le)) fun h => h.1
  obtain ⟨q1, a1, e1, f1⟩ := wall_iteration k b hk.ne' junk _ x1 s0 s1 0 h0 i1
  have hp0 : point u0 0 0 = u0 := rfl
  rw [hp0, if_pos ⟨le_rfl, by linarith⟩] at e1
  subst e1
  rw [hp0, if_pos ⟨le_rfl, by linarith⟩, sub_zero] at f1
  obtain ⟨f1, f1'⟩ := f1
  rw [show point u0 0 1 = 0 from rfl] at f1'
  obtain ⟨q2, a2, e2, f2⟩ := wall_iteration k b hk.ne' junk _ x2 s1 s2 0 a1 i2
  rw [f1, if_neg (by tauto), f1'] at e2
  subst e2
  rw [f1, if_neg (by tauto), f1', sub_zero, add_zero] at f2
  obtain ⟨q3, a3, e3, f3⟩ := wall_iteration k b hk.ne' junk _ x3 s2 s3 0 a2 i3
  rw [f2.1, if_pos ⟨le_rfl, by linarith⟩] at e3
  subst e3
  rw [f2.1, if_pos ⟨le_rfl, by linarith⟩, sub_zero] at f3
  obtain ⟨q4, a4, e4, f4⟩ := wall_iteration k b hk.ne' junk _ x4 s3 s4 0 a3 i4
  rw [f3.1, if_neg (by tauto), f3.2, f2.2] at e4
  rw [e4] at a4 f4
  rw [f3.1, if_neg (by tauto), f3.2, f2.2, sub_self, add_zero] at f4
  refine ⟨f2, ?_, f3.1, f4, ?_⟩
  · obtain ⟨s, r, b0, -⟩ := residual_spec wall (block k b) junk x2 s2 a2.1
    obtain ⟨q, -, g2, g3, -⟩ := wall_residual k b junk x2 s2 s r 0 a2 b0
    rw [f2.1, if_pos ⟨le_rfl, by linarith⟩] at g2
    refine ⟨s, r, b0, ?_⟩
    rw [g3, f2.1, g2]
    ring
  · obtain ⟨s, r, b0, -⟩ := residual_spec wall (block k b) junk x4 s4 a4.1
    obtain ⟨q, -, g2, g3, g4, g5, -⟩ := wall_residual k b junk x4 s4 s r b a4 b0
    rw [f4.1, if_neg (fun h => absurd h.1 (not_le.2 hb0)), f4.2] at g2
    refine ⟨s, r, b0, g5, fun j hj => ?_⟩
    obtain rfl | rfl : j = 0 ∨ j = 1 := by omega
    · rw [g3, f4.1, g2]
      ring
    · rw [g4, f4.1]
      simp

/-- Iterations of the block at the wall exist. -/
theorem wall_exists (k b : ℝ) (hk : k ≠ 0) (junk x : ℕ → ℝ) (s : Live) (p : ℝ) (h : AtWall s p) : ∃ s' x', Iteration wall (block k b) junk s x s' x' := by
  obtain ⟨s', r, b0, b1, -⟩ := residual_spec wall (block k b) junk x s h.1
  obtain ⟨q, a1, a2, a3, a4, a5, y, a6, a7, a8, a9⟩ := wall_residual k b junk x s s' r p h b0
  obtain ⟨-, y', hy', hl, hf, hs, hfi, hp⟩ := a1
  obtain rfl : y' = y := by
    rw [a6] at hy'
    simpa using hy'.symm
  have ht : ∃ t, inactiveTdofs s'.data.refresh.offsets s'.data.inters 0 = some t := by
    obtain ⟨o1, -⟩ := offsets_ok b1 [] [] y' (by rw [a6]; rfl) hl
    rw [a6]
    unfold inactiveTdofs
    simp only [inactiveTdofs, List.length_nil] at o1 ⊢
    rw [o1]
    split <;> simp
  obtain ⟨t, ht⟩ := ht
  have hJ : mergedJacobian s'.data = some ⟨penaltyBlock s'.data.inters, stack s'.data.inters, fun j k => stack s'.data.inters k j, inactiveDiag t⟩ := by
    unfold mergedJacobian
    rw [ht]
    rfl
  have h11 := identity_block b1 _ s'.data.inters [] hJ (by simp) (fun z hz => Or.inl (by rw [a6] at hz; simp at hz; rw [hz]; exact hl)) (by simp)
    (by rw [a6]; simp [TiedOk, hfi]) [] y' [] 0 0 (by rw [a6]; rfl) hl (by rw [hs]; norm_num)
  have h10 : stack s'.data.inters 0 0 = if 0 ∈ y'.inactive then 0 else 1 := by
    rw [a6, stack, if_pos hl, if_pos (by omega)]
    unfold Inter.activeB
    rw [a9]
    rfl
  have hpen : penaltyBlock s'.data.inters 0 0 = 0 := by
    rw [a6]
    simp [penaltyBlock, hl]
  dsimp only at h11
  change inactiveDiag t 0 0 = _ at h11
  have hc : ∃ c : ℕ → ℝ, k * c 0 + (if 0 ∈ y'.inactive then 0 else 1) * c 1 = r 0 ∧
      (if 0 ∈ y'.inactive then 0 else 1) * c 0 + (if 0 ∈ y'.inactive then 1 else 0) * c 1 = r 1 := by
    by_cases hin : 0 ∈ y'.inactive
    · refine ⟨fun j => if j = 0 then r 0 / k else r 1, ?_, ?_⟩
      · simp [hin]
        field_simp
      · simp [hin]
    · refine ⟨fun j => if j = 0 then r 1 else r 0 - k * r 1, ?_, ?_⟩ <;> simp [hin]
  obtain ⟨c, hc1, hc2⟩ := hc
  refine ⟨s', fun j => x j - c j, r, _, c, b0, by unfold gradient; rw [hJ]; rfl, ⟨fun j hj => ?_, fun j hj => ?_⟩, rfl⟩
  · obtain rfl : j = 0 := by simpa [block] using hj
    rw [a5]
    simp only [block, List.not_mem_nil, or_self, if_false, Finset.sum_range_one, h10, hpen, and_self, if_true, add_zero]
    exact hc1
  · rw [a5] at hj ⊢
    obtain rfl : j = 0 := by omega
    simp only [block, List.not_mem_nil, if_false, Finset.sum_range_one, h10]
    rw [h11]
    simp only [and_true, base, List.map_nil, List.sum_nil, add_zero]
    exact hc2

theorem held_wall : AtWall (before 0) 0 := ⟨inv_run _, held 0, (before_inters 0).1, rfl, rfl, rfl, rfl, rfl⟩

/-- The block of stiffness 2 and load -1 reaches the wall as said. -/
example : ∃ s1 s2 s3 s4 x1 x2 x3 x4, Iteration wall (block 2 (-1)) (fun _ => 0) (before 0) (point 1 0) s1 x1 ∧
    Iteration wall (block 2 (-1)) (fun _ => 0) s1 x1 s2 x2 ∧ Iteration wall (block 2 (-1)) (fun _ => 0) s2 x2 s3 x3 ∧
    Iteration wall (block 2 (-1)) (fun _ => 0) s3 x3 s4 x4 ∧ x2 1 = -1 ∧ x4 1 = -1 := by
  obtain ⟨s1, x1, i1⟩ := wall_exists 2 (-1) two_ne_zero (fun _ => 0) (point 1 0) _ _ held_wall
  obtain ⟨q1, a1, -⟩ := wall_iteration 2 (-1) two_ne_zero _ _ _ _ _ _ held_wall i1
  obtain ⟨s2, x2, i2⟩ := wall_exists 2 (-1) two_ne_zero (fun _ => 0) x1 _ _ a1
  obtain ⟨q2, a2, -⟩ := wall_iteration 2 (-1) two_ne_zero _ _ _ _ _ _ a1 i2
  obtain ⟨s3, x3, i3⟩ := wall_exists 2 (-1) two_ne_zero (fun _ => 0) x2 _ _ a2
  obtain ⟨q3, a3, -⟩ := wall_iteration 2 (-1) two_ne_zero _ _ _ _ _ _ a2 i3
  obtain ⟨s4, x4, i4⟩ := wall_exists 2 (-1) two_ne_zero (fun _ => 0) x3 _ _ a3
  have := C98_touch 2 (-1) 1 (by norm_num) (by norm_num) (by norm_num) (fun _ => 0) _ s1 s2 s3 s4 x1 x2 x3 x4 held_wall i1 i2 i3 i4
  exact ⟨s1, s2, s3, s4, x1, x2, x3, x4, i1, i2, i3, i4, this.1.2, this.2.2.2.1.2⟩

/-- Energy of the block. -/
def blockEnergy (k b : ℝ) (u : ℕ → ℝ) : ℝ := k / 2 * u 0 ^ 2 - b * u 0

theorem block_convex (k b : ℝ) (hk : 0 ≤ k) : Convex (block k b) (blockEnergy k b) := by
  intro u v
  have : 0 ≤ k * (v 0 - u 0) ^ 2 := mul_nonneg hk (sq_nonneg _)
  simp only [blockEnergy, block, Finset.sum_range_one, if_true]
  nlinarith

theorem block_derivative (k b : ℝ) (u w : ℕ → ℝ) :
    HasDerivAt (fun t : ℝ => blockEnergy k b fun j => u j + t * w j) (∑ j ∈ Finset.range (block k b).n, (block k b).R u j * w j) 0 := by
  have h0 : HasDerivAt (fun t : ℝ => u 0 + t * w 0) (w 0) 0 := by
    simpa using ((hasDerivAt_id (0 : ℝ)).mul_const (w 0)).const_add (u 0)
  have h1 := ((h0.pow 2).const_mul (k / 2)).sub (h0.const_mul b)
  refine h1.congr_deriv ?_
  simp [block]
  ring

theorem wall_independent (k b : ℝ) (y : Inter) (h : y.size = 1) : Independent wall (block k b) [y] := by
  refine ⟨(wall_linear k b y h).gap, fun u i x d hx hd => ⟨fun j => if j = 0 then 1 else 0, fun j _ hj => by simp [block] at hj, fun i' x' d' hx' hd' => ?_⟩⟩
  have e : ∀ (i : ℕ) (x : Inter), [y][i]? = some x → i = 0 ∧ x = y := by
    intro i x hx
    have hi := (List.getElem?_eq_some_iff.1 hx).1
    have hi' : i = 0 := by simpa using hi
    subst hi'
    exact ⟨rfl, by simpa using hx.symm⟩
  obtain ⟨rfl, rfl⟩ := e i x hx
  obtain ⟨rfl, rfl⟩ := e i' x' hx'
  obtain rfl : d = 0 := by omega
  obtain rfl : d' = 0 := by omega
  simp [rate, wall, block]

/-- A block pressed against the wall: the hypotheses of the theorems are met, nothing pulls, and the wall is the least energy; the energy without the wall is less. -/
example : ∃ out, solveMultipliers wall (block 2 (-1)) (fun _ => 0) [] (point 0 (-1)) (before (-3)) = some out ∧ Converged (block 2 (-1)) 0 out ∧
    Minimal wall (block 2 (-1)) (blockEnergy 2 (-1)) (before (-3)).data.inters out.u ∧ blockEnergy 2 (-1) (point (-1 / 2) 0) < blockEnergy 2 (-1) out.u := by
  obtain ⟨ops, hops⟩ := reached_before (-3)
  obtain ⟨out, o1, o2, o3, o4, o5, -⟩ := solve_spec wall (block 2 (-1)) (fun _ => 0) [] (point 0 (-1)) (before (-3)) ⟨ops, hops⟩
  obtain ⟨s2, q1, q2⟩ := solve_seen o1
  obtain rfl : before (-3) = s2 := Option.some.inj q1
  have hw : AtWall (before (-3)) (-3) := ⟨inv_run _, held (-3), (before_inters (-3)).1, rfl, rfl, rfl, rfl, rfl⟩
  obtain ⟨q, a1, a2, a3, a4, a5, y, a6, a7, a8, a9⟩ := wall_residual 2 (-1) (fun _ => 0) (point 0 (-1)) _ _ _ (-3) hw q2
  have hq : q = -1 := by
    rw [a2, if_neg (by norm_num)]
    rfl
  have hc : Converged (block 2 (-1)) 0 out := by
    intro j hj
    rw [a5] at hj
    have hj' : j < 2 := by simpa [block] using hj
    obtain rfl | rfl : j = 0 ∨ j = 1 := by omega
    · rw [a3, hq]; simp [point]
    · rw [a4]; simp [point]
  have hno : ¬Suction out.seen.data.inters := by
    rintro ⟨i, z, d, hz, -, hd, hpos, -⟩
    obtain ⟨-, y', hy', -, -, hs', -, hp'⟩ := a1
    rw [hy'] at hz
    have hi : i = 0 := by simpa using (List.getElem?_eq_some_iff.1 hz).1
    subst hi
    obtain rfl : y' = z := by simpa using hz
    obtain rfl : d = 0 := by omega
    rw [hp', hq] at hpos
    norm_num at hpos
  have hi := (before_inters (-3)).1
  refine ⟨out, o1, hc, ?_, ?_⟩
  · refine (C98_iff wall (block 2 (-1)) (blockEnergy 2 (-1)) _ [] _ _ ⟨ops, hops⟩ (block_convex 2 (-1) (by norm_num)) (block_derivative 2 (-1)) ?_ ?_ ?_ ?_ out o1 hc).2 hno
    · rw [hi]; exact wall_surfaces 2 (-1) _ rfl
    · rw [hi]; exact wall_independent 2 (-1) _ rfl
    · rw [hi]; simp [held]
    · rw [hi]; simp [held]
  · rw [o2]
    simp [blockEnergy, head, block, point]
    norm_num

/-- The block of positive stiffness with the wall meets the hypotheses of the theorem on linear systems, whether or not the wall is active. -/
example (k b : ℝ) (hk : 0 < k) (x : ℕ → ℝ) (y : Inter) (hs : y.size = 1) (hB : y.B 0 0 = 1) : Stiff (block k b) x [y] ∧ Free (block k b) [y] := by
  have e : ∀ (i : ℕ) (x : Inter), [y][i]? = some x → i = 0 ∧ x = y := by
    intro i x hx
    have hi' : i = 0 := by simpa using (List.getElem?_eq_some_iff.1 hx).1
    subst hi'
    exact ⟨rfl, by simpa using hx.symm⟩
  refine ⟨fun w _ _ hw j hj => ?_, fun i z d hz hd _ => ⟨fun _ => 1, fun j _ hj => by simp [block] at hj, fun i' z' d' hz' hd' _ => ?_⟩⟩
  · obtain rfl : j = 0 := by simpa [block] using hj
    simp [block] at hw
    have : w 0 ^ 2 ≤ 0 := by nlinarith [sq_nonneg (w 0)]
    exact pow_eq_zero_iff (two_ne_zero) |>.1 (le_antisymm this (sq_nonneg _))
  · obtain ⟨rfl, rfl⟩ := e i z hz
    obtain ⟨rfl, rfl⟩ := e i' z' hz'
    obtain rfl : d = 0 := by omega
    obtain rfl : d' = 0 := by omega
    simp [block, hB]

end Serac.C98
