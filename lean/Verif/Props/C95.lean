import Verif.Model.ContactSolve
import Verif.Props.C35
import Mathlib.Tactic.FieldSimp
/-!
# C95: what a quasi-static step with contact ends in

Spec.  After a step that stopped with all entries of the residual at most `ε`:

* contact: the bodies overlap by at most `max ε 10⁻¹⁴`, and where the reported pressure is not zero the gap is at most `ε` (`C95_contact`);
  tied surfaces are within `ε` of each other (`C95_tied`);
* balance: the forces of the body and the reported contact forces are in equilibrium up to `ε` (`Balanced`).

Balance holds with penalty enforcement (`C95_penalty`).  With multipliers it holds if no reported pressure differs from the one the solver saw;
`C95_reported` says exactly when they differ: at a dof whose multiplier pulls and whose surfaces are not overlapping.  The solver does see such
pressures, because the active set of an evaluation is computed from the pressures of the evaluation before: `C95_reversal_wrong` shows Newton's
method stopping, with residual zero, at a body still held by a contact that the load tears open.

`C95_surface` says which dofs of tied surfaces take part: those of the second surface, and those of elements for whose attribute an array that
the constructor never initialises happens to be nonzero.
-/

noncomputable section
namespace Serac.C95
open Serac.Contact Serac.C34 Serac.C35
open Classical

/-! ## Specification -/

/-- Sum of the contact forces at given coordinates. -/
def contactForce (T : Tribol) (c : ℕ → ℝ) (xs : List Inter) (k : ℕ) : ℝ := (xs.mapIdx fun i x => T.force i c x.p k).sum

/-- The forces of the body and `f` are in equilibrium at the unconstrained dofs. -/
def Balanced (H : Host) (ε : ℝ) (u f : ℕ → ℝ) : Prop := ∀ k, k < H.n → k ∉ H.ess → |H.R u k + f k| ≤ ε

/-! ## Shapes -/

/-- `ys` has the interactions of `xs`, up to what Tribol holds. -/
def Same (xs ys : List Inter) : Prop :=
  xs.length = ys.length ∧ ∀ (i : ℕ) (x : Inter), xs[i]? = some x → ∃ (p g : ℕ → ℝ) (B : ℕ → ℕ → ℝ), ys[i]? = some ({ x with p := p, g := g, B := B } : Inter)

theorem Same.num {xs ys : List Inter} (h : Same xs ys) : ys.map Inter.num = xs.map Inter.num ∧ ys.map Inter.lm = xs.map Inter.lm := by
  have hnone : ∀ i : ℕ, xs[i]? = none → ys[i]? = none := by
    intro i hi
    rw [List.getElem?_eq_none_iff] at hi ⊢
    have := h.1
    omega
  constructor <;>
  · apply List.ext_getElem?
    intro i
    rw [List.getElem?_map, List.getElem?_map]
    cases hx : xs[i]? with
    | none => rw [hnone i hx]
    | some x =>
      obtain ⟨p, g, B, hy⟩ := h.2 i x hx
      rw [hy]
      rfl

theorem Same.trans {xs ys zs : List Inter} (h : Same xs ys) (h' : Same ys zs) : Same xs zs := by
  refine ⟨h.1.trans h'.1, fun i x hx => ?_⟩
  obtain ⟨p, g, B, hy⟩ := h.2 i x hx
  obtain ⟨p', g', B', hz⟩ := h'.2 i _ hy
  exact ⟨p', g', B', hz⟩

theorem Same.base {xs ys : List Inter} (h : Same xs ys) (i : ℕ) : base (ys.take i) = base (xs.take i) := by
  rw [base_eq_num, base_eq_num, List.map_take, List.map_take, h.num.1]

theorem inv_same {s s' : Data} (h : Inv s) (hs : Same s.inters s'.inters) (h1 : s'.numDofs = s.numDofs) (h2 : s'.haveLM = s.haveLM)
    (h3 : s'.upToDate = s.upToDate) (h4 : s'.offsets = s.offsets) : Inv s' := by
  have hshape := hs.num
  refine ⟨?_, ?_, ?_⟩
  · rw [base_eq_num, hshape.1, ← base_eq_num, h1, h.num]
  · rw [any_lm, hshape.2, ← any_lm, h2, h.have_lm]
  · intro hu
    rw [h3] at hu
    obtain ⟨pre, post, e1, e2, e3⟩ := h.fresh hu
    refine ⟨s'.inters.take pre.length, s'.inters.drop pre.length, (List.take_append_drop _ _).symm, ?_, ?_⟩
    · rw [h4, e2]
      apply scan_congr
      rw [List.map_take, hshape.1, ← List.map_take, e1, List.take_left']
      rfl
    · intro x hx
      have : x.lm ∈ (s'.inters.drop pre.length).map Inter.lm := List.mem_map_of_mem hx
      rw [List.map_drop, hshape.2, ← List.map_drop, e1, List.drop_left' rfl, List.mem_map] at this
      obtain ⟨y, hy, e⟩ := this
      rw [← e]
      exact e3 y hy

/-- What `update` does. -/
theorem update_spec (T : Tribol) (s : Live) (h : Inv s.data) :
    Inv (s.update T).data ∧ (s.update T).coords = s.coords ∧ Same s.data.inters (s.update T).data.inters ∧
      (s.update T).data.numDofs = s.data.numDofs ∧
      (∀ (i : ℕ) (x : Inter), s.data.inters[i]? = some x →
        (s.update T).data.inters[i]? = some { x with g := T.gap i s.coords, B := T.slope i s.coords }) ∧
      ∀ k, (s.update T).forces k = contactForce T s.coords (s.update T).data.inters k := by
  have hget : ∀ (i : ℕ) (x : Inter), s.data.inters[i]? = some x →
      (s.update T).data.inters[i]? = some { x with g := T.gap i s.coords, B := T.slope i s.coords } := by
    intro i x hx
    unfold Live.update
    dsimp only
    rw [List.getElem?_mapIdx, hx]
    rfl
  have hsame : Same s.data.inters (s.update T).data.inters := by
    refine ⟨?_, fun i x hx => ⟨x.p, _, _, hget i x hx⟩⟩
    unfold Live.update
    simp
  refine ⟨inv_same h hsame rfl rfl rfl rfl, rfl, hsame, rfl, hget, fun k => ?_⟩
  have hfold : ∀ (l : List (ℕ → ℝ)) (a : ℝ), l.foldl (fun f g => f + g k) a = a + (l.map fun g => g k).sum := by
    intro l
    induction l with
    | nil => intro a; simp
    | cons g l ih =>
      intro a
      rw [List.foldl_cons, ih, List.map_cons, List.sum_cons]
      ring
  unfold Live.forces contactForce
  rw [hfold, zero_add]
  unfold Live.update
  dsimp only
  congr 1
  apply List.ext_getElem?
  intro i
  simp only [List.getElem?_map, List.getElem?_mapIdx, Option.map_map]
  rfl

theorem refresh_fields (s : Data) : s.refresh.inters = s.inters ∧ s.refresh.numDofs = s.numDofs := by
  unfold Data.refresh
  split <;> exact ⟨rfl, rfl⟩

/-- What `setPressures` does. -/
theorem setPressures_spec (s : Live) (h : Inv s.data) (q : ℕ → ℝ) :
    ∃ s', s.setPressures q = some s' ∧ Inv s'.data ∧ s'.coords = s.coords ∧ Same s.data.inters s'.data.inters ∧ s'.data.numDofs = s.data.numDofs ∧
      ∀ (i : ℕ) (x : Inter), s.data.inters[i]? = some x →
        s'.data.inters[i]? = some { x with p := x.newPressure (if x.lm then fun d => q (base (s.data.inters.take i) + d) else x.p) } := by
  obtain ⟨d, h1, h2, h3⟩ := set_run h q
  have hget : ∀ (i : ℕ) (x : Inter), s.data.inters[i]? = some x →
      d.inters[i]? = some { x with p := x.newPressure (if x.lm then fun d => q (base (s.data.inters.take i) + d) else x.p) } := by
    intro i x hx
    obtain ⟨y, h4, h5⟩ := h3 i x hx
    rw [h4, h5]
  have hsame : Same s.data.inters d.inters := ⟨h2.symm, fun i x hx => ⟨_, x.g, x.B, hget i x hx⟩⟩
  obtain ⟨r, -, hr⟩ := Option.map_eq_some_iff.1 h1
  have hinv : Inv s.data.refresh := inv_step h .query
  have e : d = { s.data.refresh with inters := d.inters } := by rw [← hr]
  refine ⟨{ s with data := d }, by unfold Live.setPressures; rw [h1]; rfl, ?_, rfl, hsame, ?_, hget⟩
  · apply inv_same hinv
    · rw [(refresh_fields s.data).1]; exact hsame
    all_goals rw [e]
  · change d.numDofs = _
    rw [e]
    exact (refresh_fields s.data).2

/-- The interaction as an evaluation at `u` leaves it. -/
def after (T : Tribol) (n : ℕ) (xs : List Inter) (u : ℕ → ℝ) (i : ℕ) (x : Inter) : Inter :=
  let x1 : Inter := { x with g := T.gap i (T.coords (head n u)), B := T.slope i (T.coords (head n u)) }
  { x1 with p := x1.newPressure (if x.lm then fun d => u (n + (base (xs.take i) + d)) else x.p) }

theorem merged_at {s : Data} (h : Inv s) (zero : Bool) (junk v : ℕ → ℝ) (hv : mergedGaps s zero junk = some v) (i : ℕ) (x : Inter)
    (hx : s.inters[i]? = some x) (hl : x.lm = true) (d : ℕ) (hd : d < x.size) :
    base (s.inters.take i) + d < s.numDofs ∧ v (base (s.inters.take i) + d) = x.zeroedGap zero d := by
  have hsplit : s.inters = s.inters.take i ++ x :: s.inters.drop (i + 1) := by
    obtain ⟨hlt, e⟩ := List.getElem?_eq_some_iff.1 hx
    rw [← e, List.getElem_cons_drop, List.take_append_drop]
  have hlt : base (s.inters.take i) + d < s.numDofs := by
    rw [h.num]
    conv_rhs => rw [hsplit, base_append, base_cons]
    simp only [Inter.num, hl, if_true]
    omega
  refine ⟨hlt, ?_⟩
  obtain ⟨v', h1, h2⟩ := merge_run h (fun x => x.zeroedGap zero) junk
  have e : v' = v := Option.some.inj (h1.symm.trans hv)
  rw [e] at h2
  have hg := congrArg (fun l : List ℝ => l[base (s.inters.take i) + d]?) h2
  rw [List.getElem?_map, List.getElem?_range hlt, Option.map_some] at hg
  have hf : flat (fun x => x.zeroedGap zero) s.inters = flat (fun x => x.zeroedGap zero) (s.inters.take i) ++
      ((List.range x.size).map (x.zeroedGap zero) ++ flat (fun x => x.zeroedGap zero) (s.inters.drop (i + 1))) := by
    conv_lhs => rw [hsplit]
    simp [flat, hl]
  rw [hf, List.getElem?_append_right (by rw [flat_length]; omega), flat_length, Nat.add_sub_cancel_left,
    List.getElem?_append_left (by simpa using hd), List.getElem?_map, List.getElem?_range hd, Option.map_some] at hg
  exact Option.some.inj hg

/-- What one evaluation of the residual does. -/
theorem residual_spec (T : Tribol) (H : Host) (junk u : ℕ → ℝ) (s : Live) (h : Inv s.data) :
    ∃ s' r, residualFn T H junk u s = some (s', r) ∧ Inv s'.data ∧ s'.coords = T.coords (head H.n u) ∧ Same s.data.inters s'.data.inters ∧
      s'.data.numDofs = s.data.numDofs ∧
      (∀ (i : ℕ) (x : Inter), s.data.inters[i]? = some x → s'.data.inters[i]? = some (after T H.n s.data.inters u i x)) ∧
      (∀ k, s'.forces k = contactForce T s'.coords s'.data.inters k) ∧
      (∀ k, k < H.n → r k = if k ∈ H.ess then 0 else H.R (head H.n u) k + s'.forces k) ∧
      ∀ (i : ℕ) (y : Inter), s'.data.inters[i]? = some y → y.lm = true → ∀ d, d < y.size →
        base (s'.data.inters.take i) + d < s'.data.numDofs ∧
        r (H.n + (base (s'.data.inters.take i) + d)) = if d ∈ y.inactive then 0 else y.g d := by
  set s0 := s.setDisplacements T (head H.n u) with hs0
  have h0 : Inv s0.data := h
  obtain ⟨a1, a2, a3, a4, a5, -⟩ := update_spec T s0 h0
  obtain ⟨s1, b0, b1, b2, b3, b4, b5⟩ := setPressures_spec (s0.update T) a1 (tail H.n u)
  obtain ⟨c1, c2, c3, c4, c5, c6⟩ := update_spec T s1 b1
  obtain ⟨g, hg, -⟩ := merge_run c1 (fun x => x.zeroedGap true) junk
  have hg' : mergedGaps (s1.update T).data true junk = some g := hg
  have hrun : residualFn T H junk u s = some (s1.update T, fun k => if k < H.n ∧ k ∈ H.ess then 0 else
      if k < H.n then (if k < H.n then H.R (head H.n u) k else junk k) + (s1.update T).forces k else
      if k < H.n + (s1.update T).data.numDofs then g (k - H.n) else (if k < H.n then H.R (head H.n u) k else junk k)) := by
    unfold residualFn residualFunction
    rw [← hs0, b0, Option.bind_some]
    dsimp only
    rw [hg']
    rfl
  have hcoords : s1.coords = T.coords (head H.n u) := by rw [b2, a2]; rfl
  refine ⟨_, _, hrun, c1, c2.trans hcoords, (a3.trans b3).trans c3, (c4.trans b4).trans a4, ?_, ?_, ?_, ?_⟩
  · intro i x hx
    have e1 := a5 i x hx
    have e2 := b5 i _ e1
    rw [c5 i _ e2, hcoords, a3.base i]
    rfl
  · intro k
    rw [c6, c2]
  · intro k hk
    simp only [hk, true_and, if_true]
  · intro i y hy hl d hd
    obtain ⟨m1, m2⟩ := merged_at c1 true junk g hg' i y hy hl d hd
    refine ⟨m1, ?_⟩
    rw [if_neg (by omega), if_neg (by omega), if_pos (by omega), Nat.add_sub_cancel_left, m2]
    unfold Inter.zeroedGap
    simp

theorem evaluate_spec (T : Tribol) (H : Host) (junk : ℕ → ℝ) (points : List (ℕ → ℝ)) (s : Live) (h : Inv s.data) :
    ∃ s', evaluate T H junk points s = some s' ∧ Inv s'.data ∧ Same s.data.inters s'.data.inters ∧ s'.data.numDofs = s.data.numDofs := by
  induction points generalizing s with
  | nil => exact ⟨s, rfl, h, ⟨rfl, fun i x hx => ⟨x.p, x.g, x.B, hx⟩⟩, rfl⟩
  | cons u us ih =>
    obtain ⟨s1, r, h1, h2, -, h3, h4, -⟩ := residual_spec T H junk u s h
    obtain ⟨s2, k1, k2, k3, k4⟩ := ih s1 h2
    refine ⟨s2, ?_, k2, h3.trans k3, k4.trans h4⟩
    rw [evaluate, h1, Option.bind_some]
    exact k1

/-- The pressures an interaction is given a second time, at the same gaps and with the same multipliers. -/
theorem again (x y : Inter) (slice slice' : ℕ → ℝ) (hsl : x.lm = true → slice' = slice) (hy : y = { x with p := x.newPressure slice }) :
    (y.newPressure slice' = y.p ↔ x.frictionless = true → ∀ d, d < x.size → ¬(0 < y.p d ∧ -(1 / 10 ^ 14) ≤ y.g d)) ∧
    ∀ d, y.newPressure slice' d = if d ∈ y.inactive then 0 else y.p d := by
  have hyp : ∀ d, y.p d = if d ∈ x.inactive then 0 else if x.lm then slice d else x.penalty * x.g d := by
    intro d
    rw [hy]
    rfl
  have hyl : y.lm = x.lm := by rw [hy]
  have hyf : y.frictionless = x.frictionless := by rw [hy]
  have hyg : y.g = x.g := by rw [hy]
  have hys : y.size = x.size := by rw [hy]
  have hyk : y.penalty = x.penalty := by rw [hy]
  have hyi : y.fixedInactive = x.fixedInactive := by rw [hy]
  have hval : ∀ d, (if x.lm then slice' d else x.penalty * x.g d) = if x.lm then slice d else x.penalty * x.g d := by
    intro d
    by_cases hl : x.lm = true
    · rw [hsl hl]
    · simp [hl]
  have hsec : ∀ d, y.newPressure slice' d = if d ∈ y.inactive then 0 else y.p d := by
    intro d
    unfold Inter.newPressure
    rw [hyl, hyk, hyg]
    by_cases hd : d ∈ y.inactive
    · rw [if_pos hd, if_pos hd]
    · rw [if_neg hd, if_neg hd, hval, hyp]
      have hx : d ∉ x.inactive := by
        intro hx
        apply hd
        by_cases hf : x.frictionless = true
        · obtain ⟨k1, k2, k3⟩ := (C35_active_set x hf d).1 hx
          have hp : y.p d = 0 := by rw [hyp, if_pos hx]
          exact (C35_active_set y (hyf.trans hf) d).2 ⟨by rw [hys]; exact k1, hp.ge, by rw [hyg]; exact k3⟩
        · unfold Inter.inactive at hx ⊢
          rw [if_neg hf] at hx
          rw [hyf, if_neg hf, hyi]
          exact hx
      exact (if_neg hx).symm
  refine ⟨?_, hsec⟩
  constructor
  · intro h hf d hd hbad
    have := congrFun h d
    rw [hsec, if_pos ((C35_active_set y (hyf.trans hf) d).2 ⟨by rw [hys]; exact hd, hbad.1.le, hbad.2⟩)] at this
    linarith [hbad.1]
  · intro h
    funext d
    rw [hsec]
    by_cases hd : d ∈ y.inactive
    · rw [if_pos hd]
      by_cases hf : x.frictionless = true
      · obtain ⟨k1, k2, k3⟩ := (C35_active_set y (hyf.trans hf) d).1 hd
        by_contra hne
        exact h hf d (by rw [← hys]; exact k1) ⟨lt_of_le_of_ne k2 hne, k3⟩
      · have hx : d ∈ x.inactive := by
          unfold Inter.inactive at hd ⊢
          rw [hyf, if_neg hf, hyi] at hd
          rw [if_neg hf]
          exact hd
        rw [hyp, if_pos hx]
    · rw [if_neg hd]

/-! ## Theorems -/

/-- The interactions of a `Live` state come from any sequence of calls. -/
def Reached (s : Live) : Prop := ∃ ops, s.data = Data.run ops

/-- What a step with multipliers does, in terms of the state the solver saw last. -/
theorem solve_spec (T : Tribol) (H : Host) (junk : ℕ → ℝ) (points : List (ℕ → ℝ)) (x : ℕ → ℝ) (s : Live) (h : Reached s) :
    ∃ out, solveMultipliers T H junk points x s = some out ∧ out.u = head H.n x ∧ Inv out.seen.data ∧ Same s.data.inters out.seen.data.inters ∧
      out.seen.data.numDofs = s.data.numDofs ∧ out.seen.data.inters.length = out.live.data.inters.length ∧
      (∀ k, out.forces k = contactForce T (T.coords out.u) out.live.data.inters k) ∧
      (∀ k, k < H.n → out.residual k = if k ∈ H.ess then 0 else
        H.R out.u k + contactForce T (T.coords out.u) out.seen.data.inters k) ∧
      (∀ (i : ℕ) (y : Inter), out.seen.data.inters[i]? = some y → y.g = T.gap i (T.coords out.u) ∧
        out.live.data.inters[i]? = some { y with p := fun d => if d ∈ y.inactive then 0 else y.p d } ∧
        ((fun d => if d ∈ y.inactive then 0 else y.p d) = y.p ↔
          (y.frictionless = true → ∀ d, d < y.size → ¬(0 < y.p d ∧ -(1 / 10 ^ 14) ≤ y.g d)))) ∧
      ∀ (i : ℕ) (y : Inter), out.seen.data.inters[i]? = some y → y.lm = true → ∀ d, d < y.size →
        base (out.seen.data.inters.take i) + d < out.seen.data.numDofs ∧
        out.residual (H.n + (base (out.seen.data.inters.take i) + d)) = if d ∈ y.inactive then 0 else y.g d := by
  obtain ⟨ops, hops⟩ := h
  have hinv : Inv s.data := hops ▸ inv_run ops
  obtain ⟨s1, a0, a1, a2, a3⟩ := evaluate_spec T H junk points s hinv
  obtain ⟨s2, r, b0, b1, b2, b3, b4, b5, b6, b7, b8⟩ := residual_spec T H junk x s1 a1
  obtain ⟨s3, c0, c1, c2, c3, c4, c5⟩ := setPressures_spec s2 b1 (tail H.n x)
  obtain ⟨d1, d2, d3, d4, d5, d6⟩ := update_spec T s3 c1
  have hcoords : s3.coords = T.coords (head H.n x) := c2.trans b2
  refine ⟨⟨head H.n x, s3.update T, (s3.update T).forces, r, s2⟩, ?_, rfl, b1, a2.trans b3, b4.trans a3, ?_, ?_, ?_, ?_, b8⟩
  · unfold solveMultipliers
    rw [a0, Option.bind_some, b0, Option.bind_some]
    dsimp only
    rw [c0]
    rfl
  · exact c3.1.trans d3.1
  · intro k
    dsimp only
    rw [d6, hcoords]
  · intro k hk
    dsimp only
    rw [b7 k hk, b6 k, b2]
  · intro i y hy
    dsimp only
    have hi : i < s1.data.inters.length := by
      rw [b3.1]
      exact (List.getElem?_eq_some_iff.1 hy).1
    have hx := List.getElem?_eq_getElem hi
    generalize s1.data.inters[i] = x0 at hx
    have hy' : y = after T H.n s1.data.inters x i x0 := Option.some.inj (hy.symm.trans (b5 i x0 hx))
    set x1 : Inter := { x0 with g := T.gap i (T.coords (head H.n x)), B := T.slope i (T.coords (head H.n x)) } with hx1
    have hlive := d5 i _ (c5 i y hy)
    have hag := again x1 y (if x0.lm then fun d => x (H.n + (base (s1.data.inters.take i) + d)) else x0.p)
      (if y.lm then fun d => tail H.n x (base (s2.data.inters.take i) + d) else y.p) (by
        intro hl
        have hl0 : x0.lm = true := hl
        have hl1 : y.lm = true := by rw [hy']; exact hl
        rw [if_pos hl0, if_pos hl1, b3.base i]
        rfl) hy'
    have hfun : y.newPressure (if y.lm then fun d => tail H.n x (base (s2.data.inters.take i) + d) else y.p) =
        fun d => if d ∈ y.inactive then 0 else y.p d := funext hag.2
    have hg : y.g = T.gap i (T.coords (head H.n x)) := by rw [hy']; rfl
    have hB : y.B = T.slope i (T.coords (head H.n x)) := by rw [hy']; rfl
    refine ⟨hg, ?_, ?_⟩
    · rw [hlive, hfun, hcoords, ← hg, ← hB]
    · rw [← hfun, hag.1]
      have e1 : x1.frictionless = y.frictionless := by rw [hy']; rfl
      have e2 : x1.size = y.size := by rw [hy']; rfl
      rw [e1, e2]

/-- **C95, a step is always defined**: whatever contact interactions there are and whatever points the solver evaluates. -/
theorem C95_defined (T : Tribol) (H : Host) (junk : ℕ → ℝ) (points : List (ℕ → ℝ)) (x : ℕ → ℝ) (s : Live) (h : Reached s) :
    (solveMultipliers T H junk points x s).isSome ∧ (solvePenalty T H junk points x s).isSome := by
  obtain ⟨out, h1, -⟩ := solve_spec T H junk points x s h
  refine ⟨by rw [h1]; rfl, ?_⟩
  obtain ⟨ops, hops⟩ := h
  obtain ⟨s1, a0, a1, -⟩ := evaluate_spec T H junk points s (hops ▸ inv_run ops)
  obtain ⟨s2, r, b0, -⟩ := residual_spec T H junk x s1 a1
  unfold solvePenalty
  rw [a0, Option.bind_some, b0]
  rfl

/-- The solver stopped with every entry of the residual at most `ε`. -/
def Converged (H : Host) (ε : ℝ) (out : Solved) : Prop := ∀ k, k < H.n + out.seen.data.numDofs → |out.residual k| ≤ ε

/-- **C95, contact conditions.**  After a converged step, at every dof of every frictionless multiplier interaction the surfaces overlap by at
most `max ε 10⁻¹⁴`; where the reported pressure is not zero they are within `ε` of each other; and a reported pressure only pulls where they overlap
by more than `10⁻¹⁴`, so never if the tolerance is that small. -/
theorem C95_contact (T : Tribol) (H : Host) (junk : ℕ → ℝ) (points : List (ℕ → ℝ)) (x : ℕ → ℝ) (s : Live) (h : Reached s) (ε : ℝ)
    (out : Solved) (ho : solveMultipliers T H junk points x s = some out) (hc : Converged H ε out) (i : ℕ) (y : Inter)
    (hy : out.live.data.inters[i]? = some y) (hl : y.lm = true) (hf : y.frictionless = true) (d : ℕ) (hd : d < y.size) :
    -max ε (1 / 10 ^ 14) ≤ T.gap i (T.coords out.u) d ∧ (y.p d ≠ 0 → |T.gap i (T.coords out.u) d| ≤ ε) ∧
      (0 < y.p d → T.gap i (T.coords out.u) d < -(1 / 10 ^ 14)) ∧ (ε ≤ 1 / 10 ^ 14 → y.p d ≤ 0) := by
  obtain ⟨out', h1, -, -, -, -, hlen, -, -, h2, h3⟩ := solve_spec T H junk points x s h
  obtain rfl : out' = out := Option.some.inj (h1.symm.trans ho)
  have hi : i < out'.seen.data.inters.length := by
    rw [hlen]
    exact (List.getElem?_eq_some_iff.1 hy).1
  have hz := List.getElem?_eq_getElem hi
  generalize out'.seen.data.inters[i] = z at hz
  obtain ⟨hg, hlive, -⟩ := h2 i z hz
  have hyz : y = { z with p := fun d => if d ∈ z.inactive then 0 else z.p d } := Option.some.inj (hy.symm.trans hlive)
  have hzl : z.lm = true := by rw [← hl, hyz]
  have hzf : z.frictionless = true := by rw [← hf, hyz]
  have hzd : d < z.size := by rw [hyz] at hd; exact hd
  obtain ⟨hlt, hr⟩ := h3 i z hz hzl d hzd
  have hres := hc _ (Nat.add_lt_add_left hlt H.n)
  rw [hr] at hres
  have hp : y.p d = if d ∈ z.inactive then 0 else z.p d := by rw [hyz]
  rw [← hg, hp]
  by_cases hin : d ∈ z.inactive
  · obtain ⟨-, -, k3⟩ := (C35_active_set z hzf d).1 hin
    rw [if_pos hin]
    refine ⟨(neg_le_neg (le_max_right _ _)).trans k3, fun h => absurd rfl h, fun h => absurd h (lt_irrefl _), fun _ => le_rfl⟩
  · rw [if_neg hin] at hres ⊢
    have hlow : -ε ≤ z.g d := (abs_le.1 hres).1
    have hpull : 0 < z.p d → z.g d < -(1 / 10 ^ 14) := by
      intro hpos
      by_contra hge
      exact hin ((C35_active_set z hzf d).2 ⟨hzd, hpos.le, not_lt.1 hge⟩)
    refine ⟨(neg_le_neg (le_max_left _ _)).trans hlow, fun _ => hres, hpull, fun he => ?_⟩
    by_contra hpos
    have := hpull (not_le.1 hpos)
    linarith

/-- **C95, tied contact.**  After a converged step the gap of a tied interaction is at most `ε` at every dof of the second surface, and the
pressure is zero at the others. -/
theorem C95_tied (T : Tribol) (H : Host) (junk : ℕ → ℝ) (points : List (ℕ → ℝ)) (x : ℕ → ℝ) (s : Live) (h : Reached s) (ε : ℝ)
    (out : Solved) (ho : solveMultipliers T H junk points x s = some out) (hc : Converged H ε out) (i : ℕ) (y : Inter)
    (hy : out.live.data.inters[i]? = some y) (hl : y.lm = true) (hf : y.frictionless = false) (d : ℕ) (hd : d < y.size) :
    if d ∈ y.fixedInactive then y.p d = 0 else |T.gap i (T.coords out.u) d| ≤ ε := by
  obtain ⟨out', h1, -, -, -, -, hlen, -, -, h2, h3⟩ := solve_spec T H junk points x s h
  obtain rfl : out' = out := Option.some.inj (h1.symm.trans ho)
  have hi : i < out'.seen.data.inters.length := by
    rw [hlen]
    exact (List.getElem?_eq_some_iff.1 hy).1
  have hz := List.getElem?_eq_getElem hi
  generalize out'.seen.data.inters[i] = z at hz
  obtain ⟨hg, hlive, -⟩ := h2 i z hz
  have hyz : y = { z with p := fun d => if d ∈ z.inactive then 0 else z.p d } := Option.some.inj (hy.symm.trans hlive)
  have hzl : z.lm = true := by rw [← hl, hyz]
  have hzf : z.frictionless = false := by rw [← hf, hyz]
  have hzd : d < z.size := by rw [hyz] at hd; exact hd
  obtain ⟨hlt, hr⟩ := h3 i z hz hzl d hzd
  have hres := hc _ (Nat.add_lt_add_left hlt H.n)
  rw [hr] at hres
  have hin : z.inactive = y.fixedInactive := by
    unfold Inter.inactive
    rw [if_neg (by simp [hzf]), hyz]
  have hp : y.p d = if d ∈ z.inactive then 0 else z.p d := by rw [hyz]
  rw [← hg, hp, ← hin]
  by_cases hm : d ∈ z.inactive
  · rw [if_pos hm, if_pos hm]
  · rw [if_neg hm] at hres ⊢
    exact hres

/-- A multiplier (or penalty pressure) of the last evaluation that pulls at surfaces that do not overlap. -/
def Suction (seen : List Inter) : Prop :=
  ∃ (i : ℕ) (y : Inter) (d : ℕ), seen[i]? = some y ∧ y.frictionless = true ∧ d < y.size ∧ 0 < y.p d ∧ -(1 / 10 ^ 14) ≤ y.g d

/-- **C95, what is reported.**  The pressures a step with multipliers leaves are those of the residual the solver accepted if and only if
none of these pulls at surfaces that do not overlap. -/
theorem C95_reported (T : Tribol) (H : Host) (junk : ℕ → ℝ) (points : List (ℕ → ℝ)) (x : ℕ → ℝ) (s : Live) (h : Reached s)
    (out : Solved) (ho : solveMultipliers T H junk points x s = some out) :
    out.live.data.inters.map Inter.p = out.seen.data.inters.map Inter.p ↔ ¬Suction out.seen.data.inters := by
  obtain ⟨out', h1, -, -, -, -, hlen, -, -, h2, -⟩ := solve_spec T H junk points x s h
  obtain rfl : out' = out := Option.some.inj (h1.symm.trans ho)
  constructor
  · rintro heq ⟨i, y, d, hy, hf, hd, hbad⟩
    obtain ⟨-, hlive, hiff⟩ := h2 i y hy
    have := congrArg (fun l : List (ℕ → ℝ) => l[i]?) heq
    rw [List.getElem?_map, List.getElem?_map, hy, hlive, Option.map_some, Option.map_some] at this
    exact hiff.1 (Option.some.inj this) hf d hd hbad
  · intro hno
    apply List.ext_getElem?
    intro i
    rw [List.getElem?_map, List.getElem?_map]
    cases hy : out'.seen.data.inters[i]? with
    | none =>
      rw [List.getElem?_eq_none_iff] at hy
      rw [List.getElem?_eq_none_iff.2 (by omega)]
    | some y =>
      obtain ⟨-, hlive, hiff⟩ := h2 i y hy
      rw [hlive, Option.map_some, Option.map_some]
      congr 1
      exact hiff.2 fun hf d hd hbad => hno ⟨i, y, d, hy, hf, hd, hbad⟩

theorem contactForce_congr (T : Tribol) (c : ℕ → ℝ) {xs ys : List Inter} (h : xs.map Inter.p = ys.map Inter.p) (k : ℕ) :
    contactForce T c xs k = contactForce T c ys k := by
  have key : ∀ zs : List Inter, (zs.mapIdx fun i x => T.force i c x.p k) = (zs.map Inter.p).mapIdx fun i p => T.force i c p k := by
    intro zs
    apply List.ext_getElem?
    intro i
    simp only [List.getElem?_mapIdx, List.getElem?_map, Option.map_map]
    rfl
  unfold contactForce
  rw [key, key, h]

/-- **C95, balance with multipliers** (partial: no multiplier of the last evaluation pulls at surfaces that do not overlap).  The body and the reported contact
forces are in equilibrium up to `ε`. -/
theorem C95_balance_partial (T : Tribol) (H : Host) (junk : ℕ → ℝ) (points : List (ℕ → ℝ)) (x : ℕ → ℝ) (s : Live) (h : Reached s) (ε : ℝ)
    (out : Solved) (ho : solveMultipliers T H junk points x s = some out) (hc : Converged H ε out) (hno : ¬Suction out.seen.data.inters) :
    Balanced H ε out.u out.forces ∧ ∀ k, out.forces k = contactForce T (T.coords out.u) out.live.data.inters k := by
  have hrep := (C95_reported T H junk points x s h out ho).2 hno
  obtain ⟨out', h1, -, -, -, -, -, hforce, hres, -⟩ := solve_spec T H junk points x s h
  obtain rfl : out' = out := Option.some.inj (h1.symm.trans ho)
  refine ⟨fun k hk hess => ?_, hforce⟩
  have := hc k (by omega)
  rw [hres k hk, if_neg hess, ← contactForce_congr T (T.coords out'.u) hrep, ← hforce] at this
  exact this

/-- **C95, balance with penalty enforcement only.**  The reported contact forces are those of the residual the solver accepted, whatever their
sign, and belong to the reported pressures. -/
theorem C95_penalty (T : Tribol) (H : Host) (junk : ℕ → ℝ) (points : List (ℕ → ℝ)) (x : ℕ → ℝ) (s : Live) (h : Reached s) (ε : ℝ)
    (out : Solved) (ho : solvePenalty T H junk points x s = some out) (hc : Converged H ε out) :
    Balanced H ε out.u out.forces ∧ (∀ k, out.forces k = contactForce T (T.coords out.u) out.live.data.inters k) ∧
      ∀ (i : ℕ) (y : Inter), out.live.data.inters[i]? = some y → y.lm = false → y.g = T.gap i (T.coords out.u) ∧
        ∀ d, y.p d = 0 ∨ y.p d = y.penalty * y.g d := by
  obtain ⟨ops, hops⟩ := h
  obtain ⟨s1, a0, a1, -⟩ := evaluate_spec T H junk points s (hops ▸ inv_run ops)
  obtain ⟨s2, r, b0, b1, b2, b3, b4, b5, b6, b7, b8⟩ := residual_spec T H junk x s1 a1
  obtain ⟨d1, d2, d3, d4, d5, d6⟩ := update_spec T s2 b1
  have ho' : (⟨head H.n x, s2.update T, (s2.update T).forces, r, s2⟩ : Solved) = out := by
    unfold solvePenalty at ho
    rw [a0, Option.bind_some, b0] at ho
    exact Option.some.inj ho
  subst ho'
  have hp : (s2.update T).data.inters.map Inter.p = s2.data.inters.map Inter.p := by
    unfold Live.update
    apply List.ext_getElem?
    intro i
    simp only [List.getElem?_map, List.getElem?_mapIdx, Option.map_map]
    rfl
  have hforce : ∀ k, (s2.update T).forces k = contactForce T (T.coords (head H.n x)) (s2.update T).data.inters k := by
    intro k
    rw [d6, b2]
  refine ⟨fun k hk hess => ?_, hforce, fun i y hy hl => ?_⟩
  · have := hc k (by dsimp only; omega)
    dsimp only at this ⊢
    rw [b7 k hk, if_neg hess, b6 k, b2, ← contactForce_congr T _ hp, ← hforce] at this
    exact this
  · dsimp only at hy ⊢
    have hi : i < s1.data.inters.length := by
      rw [b3.1, d3.1]
      exact (List.getElem?_eq_some_iff.1 hy).1
    have hx := List.getElem?_eq_getElem hi
    generalize s1.data.inters[i] = x0 at hx
    have hy' := Option.some.inj (hy.symm.trans (d5 i _ (b5 i x0 hx)))
    rw [b2] at hy'
    have hl0 : x0.lm = false := by rw [← hl, hy']; rfl
    subst hy'
    refine ⟨rfl, fun d => ?_⟩
    change (after T H.n s1.data.inters x i x0).p d = 0 ∨ (after T H.n s1.data.inters x i x0).p d = x0.penalty * T.gap i (T.coords (head H.n x)) d
    unfold after
    dsimp only
    unfold Inter.newPressure
    split
    · exact Or.inl rfl
    · right
      rw [if_neg (by simp [hl0])]

/-! ## The dofs of tied surfaces -/

/-- mfem stores dof `d` in an element's list as `d`, or as `-1 - d` when the element uses it with the opposite sign. -/
def Names (k : ℤ) (d : ℕ) : Prop := k = d ∨ k = -1 - d

theorem decode_iff (k : ℤ) (d : ℕ) : decode k = d ↔ Names k d := by
  unfold decode Names
  split <;> omega

/-- The true dof `t` belongs to an element whose attribute is one of `surf2`. -/
def OnSurface (S : PressureSpace) (surf2 : List ℕ) (t : ℕ) : Prop :=
  ∃ e, e < S.elements ∧ S.attr e ∈ surf2 ∧ ∃ k ∈ S.vdofs e, Names k (S.localOf t)

theorem marker_zero (S : PressureSpace) (markers : ℕ → ℤ) (m : ℕ) (v : ℕ → ℤ) (j : ℕ) :
    (List.range m).foldl (markElement S markers) v j = 0 ↔
      v j = 0 ∨ ∃ e, e < m ∧ markers (S.attr e - 1) ≠ 0 ∧ ∃ k ∈ S.vdofs e, decode k = j := by
  have hmark : ∀ (l : List ℤ) (v : ℕ → ℤ), markDofs l v j = 0 ↔ v j = 0 ∨ ∃ k ∈ l, decode k = j := by
    intro l
    induction l with
    | nil => intro v; simp [markDofs]
    | cons k l ih =>
      intro v
      rw [markDofs, ih]
      by_cases hk : j = decode k
      · simp [hk]
      · rw [Function.update_of_ne hk]
        simp [Ne.symm hk]
  induction m with
  | zero => simp
  | succ m ih =>
    rw [List.range_succ, List.foldl_append, List.foldl_cons, List.foldl_nil]
    unfold markElement
    by_cases hm : markers (S.attr m - 1) ≠ 0
    · rw [if_pos hm, hmark]
      refine (or_congr ih Iff.rfl).trans ?_
      constructor
      · rintro ((h | ⟨e, he, h⟩) | h)
        · exact Or.inl h
        · exact Or.inr ⟨e, by omega, h⟩
        · exact Or.inr ⟨m, by omega, hm, h⟩
      · rintro (h | ⟨e, he, h⟩)
        · exact Or.inl (Or.inl h)
        · by_cases hem : e = m
          · subst hem
            exact Or.inr h.2
          · exact Or.inl (Or.inr ⟨e, by omega, h⟩)
    · rw [if_neg hm]
      refine Iff.trans ih ?_
      constructor
      · rintro (h | ⟨e, he, h⟩)
        · exact Or.inl h
        · exact Or.inr ⟨e, by omega, h⟩
      · rintro (h | ⟨e, he, h⟩)
        · exact Or.inl h
        · by_cases hem : e = m
          · subst hem
            exact absurd h.1 hm
          · exact Or.inr ⟨e, by omega, h⟩

theorem surf2_markers (surf2 : List ℕ) (memory : ℕ → ℤ) (j : ℕ) :
    surf2.foldl (fun (m : ℕ → ℤ) a => Function.update m (a - 1) 1) memory j ≠ 0 ↔ memory j ≠ 0 ∨ ∃ a ∈ surf2, a - 1 = j := by
  induction surf2 generalizing memory with
  | nil => simp
  | cons a l ih =>
    rw [List.foldl_cons, ih]
    by_cases h : j = a - 1
    · simp [h]
    · rw [Function.update_of_ne h]
      simp [Ne.symm h]

/-- **C95, tied surfaces, exactly.**  The array of surface markers is not initialised; `memory` is what it contains.  A true dof of the pressure space
of a tied interaction is inactive if and only if it lies on no element of the second surface and on no element for whose attribute the memory was not zero. -/
theorem C95_surface (S : PressureSpace) (surf2 : List ℕ) (memory : ℕ → ℤ) (hpos : ∀ e, 1 ≤ S.attr e) (hpos2 : ∀ a ∈ surf2, 1 ≤ a) (t : ℕ) :
    t ∈ tiedInactive S surf2 memory ↔ t < S.trueSize ∧ ¬OnSurface S surf2 t ∧
      ∀ e, e < S.elements → memory (S.attr e - 1) ≠ 0 → ∀ k ∈ S.vdofs e, ¬Names k (S.localOf t) := by
  unfold tiedInactive
  rw [List.mem_filter, List.mem_range, decide_eq_true_iff, ne_eq, marker_zero]
  simp only [surf2_markers, decode_iff]
  constructor
  · rintro ⟨h1, h2⟩
    push Not at h2
    refine ⟨h1, ?_, ?_⟩
    · rintro ⟨e, he, ha, k, hk, hd⟩
      exact h2.2 e he (Or.inr ⟨_, ha, rfl⟩) k hk hd
    · intro e he hm k hk
      exact h2.2 e he (Or.inl hm) k hk
  · rintro ⟨h1, h2, h3⟩
    refine ⟨h1, ?_⟩
    push Not
    refine ⟨by norm_num, fun e he hm k hk hd => ?_⟩
    rcases hm with hm | ⟨a, ha, hae⟩
    · exact h3 e he hm k hk hd
    · have : a = S.attr e := by
        have := hpos e
        have := hpos2 a ha
        omega
      exact h2 ⟨e, he, this ▸ ha, k, hk, hd⟩

/-- **C95, tied surfaces** (partial: the memory of the markers happened to be zero): the inactive dofs are those not on the second surface. -/
theorem C95_surface_partial (S : PressureSpace) (surf2 : List ℕ) (hpos : ∀ e, 1 ≤ S.attr e) (hpos2 : ∀ a ∈ surf2, 1 ≤ a) (t : ℕ) :
    t ∈ tiedInactive S surf2 (fun _ => 0) ↔ t < S.trueSize ∧ ¬OnSurface S surf2 t := by
  rw [C95_surface S surf2 _ hpos hpos2]
  simp

/-- **C95, tied surfaces, refuted.**  For every dof that lies on some element but not on the second surface there are contents of the memory for which
the gap is made to vanish at it. -/
theorem C95_surface_wrong (S : PressureSpace) (surf2 : List ℕ) (hpos : ∀ e, 1 ≤ S.attr e) (hpos2 : ∀ a ∈ surf2, 1 ≤ a) (t e : ℕ)
    (he : e < S.elements) (k : ℤ) (hk : k ∈ S.vdofs e) (hd : Names k (S.localOf t)) : ∃ memory : ℕ → ℤ, t ∉ tiedInactive S surf2 memory := by
  refine ⟨fun _ => 7, fun h => ?_⟩
  exact ((C95_surface S surf2 _ hpos hpos2 t).1 h).2.2 e he (by norm_num) k hk hd

/-- Two segments with attributes 1 and 2 sharing no dof: with zeroed memory the dofs of the first are inactive, those of the second active. -/
example : let S : PressureSpace := ⟨2, fun e => e + 1, fun e => if e = 0 then [0, 1] else [2, 3], 4, fun t => t⟩
    0 ∈ tiedInactive S [2] (fun _ => 0) ∧ 3 ∉ tiedInactive S [2] (fun _ => 0) ∧ 0 ∉ tiedInactive S [2] (fun _ => 7) := by
  intro S
  have hp : ∀ e, 1 ≤ S.attr e := fun e => by simp [S]
  refine ⟨?_, ?_, ?_⟩
  · rw [C95_surface_partial S [2] hp (by simp)]
    refine ⟨by norm_num [S], ?_⟩
    rintro ⟨e, he, ha, k, hk, hd⟩
    have h1 : e = 1 := by simpa [S] using ha
    subst h1
    simp only [S, one_ne_zero, if_false, List.mem_cons, List.not_mem_nil, or_false] at hk
    rcases hk with rfl | rfl <;> simp [Names, S] at hd
  · rw [C95_surface_partial S [2] hp (by simp)]
    rintro ⟨-, h⟩
    exact h ⟨1, by norm_num [S], by simp [S], 3, by simp [S], by simp [Names, S]⟩
  · intro h
    exact ((C95_surface S [2] _ hp (by simp) 0).1 h).2.2 0 (by norm_num [S]) (by norm_num) 0 (by simp [S]) (by simp [Names, S])

/-! ## A load that reverses -/

/-- One dof, pushed against a wall at `0` by the load when it is negative. -/
def block (stiffness load : ℝ) : Host := ⟨1, fun u k => if k = 0 then stiffness * u 0 - load else 0, fun _ i j => if i = 0 ∧ j = 0 then stiffness else 0, []⟩

/-- The wall: the gap is the displacement, the pressure acts on the dof. -/
def wall : Tribol := ⟨fun u => u, fun _ c _ => c 0, fun _ _ _ j => if j = 0 then 1 else 0, fun _ _ p k => if k = 0 then p 0 else 0⟩

/-- A frictionless multiplier interaction with one dof, in which Tribol holds the pressure `a` of the step before. -/
def held (a : ℝ) : Inter := ⟨true, true, 0, 1, fun _ => a, fun _ => 0, fun _ j => if j = 0 then 1 else 0, []⟩

def before (a : ℝ) : Live := ⟨Data.run [.add (held a), .query], fun _ => 0, []⟩

/-- Displacement and multiplier. -/
def point (u p : ℝ) : ℕ → ℝ := fun k => if k = 0 then u else if k = 1 then p else 0

/-- A correction computed from the residual and the gradient at the last evaluation: `J c = r`. -/
def Correction (H : Host) (b : Blocks) (m : ℕ) (r c : ℕ → ℝ) : Prop :=
  (∀ k, k < H.n → (∑ j ∈ Finset.range H.n, b.J00 k j * c j) + (∑ l ∈ Finset.range m, b.J01 k l * c (H.n + l)) = r k) ∧
  ∀ k, k < m → (∑ j ∈ Finset.range H.n, b.J10 k j * c j) + (∑ l ∈ Finset.range m, b.J11 k l * c (H.n + l)) = r (H.n + k)

theorem reached_before (a : ℝ) : Reached (before a) := ⟨_, rfl⟩

theorem solve_seen {T : Tribol} {H : Host} {junk : ℕ → ℝ} {points : List (ℕ → ℝ)} {x : ℕ → ℝ} {s : Live} {out : Solved}
    (ho : solveMultipliers T H junk points x s = some out) :
    ∃ s1, evaluate T H junk points s = some s1 ∧ residualFn T H junk x s1 = some (out.seen, out.residual) := by
  unfold solveMultipliers at ho
  obtain ⟨s1, h1, h2⟩ := Option.bind_eq_some_iff.1 ho
  obtain ⟨o, h3, h4⟩ := Option.bind_eq_some_iff.1 h2
  obtain ⟨s3, -, h5⟩ := Option.map_eq_some_iff.1 h4
  refine ⟨s1, h1, ?_⟩
  rw [h3, ← h5]

theorem before_inters (a : ℝ) : (before a).data.inters = [held a] ∧ (before a).data.numDofs = 1 := by
  constructor <;> simp [before, Data.run, Data.step, Data.add, Data.new, Data.refresh, held, Inter.num]

/-- An evaluation at displacement zero, the interaction holding any pressures that are compressive at its dof: the multiplier is taken as it is. -/
theorem wall_eval (k b : ℝ) (junk u : ℕ → ℝ) (hu : u 0 = 0) (s : Live) (hs : Inv s.data) (x0 : Inter) (hx0 : s.data.inters = [x0]) (hl : x0.lm = true)
    (hf : x0.frictionless = true) (h1 : x0.size = 1) (hneg : x0.p 0 < 0) :
    ∃ (s' : Live) (r : ℕ → ℝ) (y : Inter), residualFn wall (block k b) junk u s = some (s', r) ∧ Inv s'.data ∧ s'.data.inters = [y] ∧ y.lm = true ∧
      y.frictionless = true ∧ y.size = 1 ∧ y.p 0 = u 1 ∧ y.g 0 = 0 ∧ (∀ j, y.B 0 j = if j = 0 then 1 else 0) ∧ s'.data.numDofs = s.data.numDofs ∧
      r 0 = -b + u 1 ∧ r 1 = 0 := by
  obtain ⟨s', r, b0, b1, b2, b3, b4, b5, b6, b7, b8⟩ := residual_spec wall (block k b) junk u s hs
  have hget : s'.data.inters[0]? = some (after wall 1 s.data.inters u 0 x0) := b5 0 x0 (by rw [hx0]; rfl)
  set y := after wall 1 s.data.inters u 0 x0 with hy
  have hlen : s'.data.inters.length = 1 := by rw [← b3.1, hx0]; rfl
  have hone : s'.data.inters = [y] := by
    obtain ⟨z, hz⟩ := List.length_eq_one_iff.1 hlen
    rw [hz] at hget ⊢
    simpa using hget
  have hg : y.g 0 = 0 := by
    change head 1 u 0 = 0
    simp [head, hu]
  have hp : y.p 0 = u 1 := by
    rw [hy]
    unfold after
    dsimp only
    unfold Inter.newPressure
    rw [if_neg]
    · dsimp only
      rw [if_pos hl, if_pos hl, List.take_zero]
      rfl
    · intro h
      have := ((C35_active_set _ (by exact hf) 0).1 h).2.1
      dsimp only at this
      linarith
  refine ⟨s', r, y, b0, b1, hone, hl, hf, h1, hp, hg, fun j => rfl, b4, ?_, ?_⟩
  · have := b7 0 (by simp [block])
    rw [this, b6, hone]
    simp [block, contactForce, wall, head, hu, hp]
  · obtain ⟨-, e⟩ := b8 0 y (by rw [hone]; rfl) hl 0 (by rw [show y.size = 1 from h1]; norm_num)
    rw [List.take_zero] at e
    change r (1 + (0 + 0)) = _ at e
    rw [show r 1 = r (1 + (0 + 0)) from rfl, e, hg]
    simp

/-- **C95, balance, refuted.**  A block pressed against a wall is in equilibrium (displacement `0`, pressure `a < 0`).  The load reverses and pulls it
away (`b > 0`).  Newton's method evaluates the residual at the old state, takes a full correction and stops there: the residual vanishes.  The step
leaves the block at the wall with zero contact force, out of balance by the whole load. -/
theorem C95_reversal_wrong (k a b : ℝ) (ha : a < 0) (hb : 0 < b) (junk c r : ℕ → ℝ) (s1 : Live) (B : Blocks)
    (h1 : residualFn wall (block k b) junk (point 0 a) (before a) = some (s1, r))
    (h2 : gradient (block k b) (point 0 a) s1.data = some B) (h3 : Correction (block k b) B 1 r c) :
    ∃ out, solveMultipliers wall (block k b) junk [point 0 a] (fun j => point 0 a j - c j) (before a) = some out ∧
      Converged (block k b) 0 out ∧ out.u 0 = 0 ∧ out.forces 0 = 0 ∧ (block k b).R out.u 0 + out.forces 0 = -b := by
  obtain ⟨ops, hops⟩ := reached_before a
  obtain ⟨hi, hn⟩ := before_inters a
  obtain ⟨s1', r', y, e0, e1, e2, e3, e4, e5, e6, e7, e8, e9, e10, e11⟩ :=
    wall_eval k b junk (point 0 a) rfl (before a) (hops ▸ inv_run ops) (held a) hi rfl rfl rfl ha
  obtain ⟨rfl, rfl⟩ : s1' = s1 ∧ r' = r := by
    have := Option.some.inj (e0.symm.trans h1)
    exact ⟨congrArg Prod.fst this, congrArg Prod.snd this⟩
  have hya : y.p 0 = a := e6
  -- the correction
  have hin : y.inactive = [] := by
    rw [List.eq_nil_iff_forall_not_mem]
    intro d hd
    obtain ⟨k1, k2, -⟩ := (C35_active_set y e4 d).1 hd
    obtain rfl : d = 0 := by omega
    rw [hya] at k2
    linarith
  obtain ⟨b', hb', rfl⟩ := Option.map_eq_some_iff.1 h2
  obtain ⟨t, ht, rfl⟩ := Option.map_eq_some_iff.1 hb'
  have ht0 : t = [] := by
    rw [e2] at ht
    simpa [inactiveTdofs, hin] using ht
  have hJ10 : stack s1'.data.inters 0 0 = 1 := by
    rw [e2, stack, if_pos e3, if_pos (by omega)]
    unfold Inter.activeB
    rw [hin, if_neg (by simp), e8, if_pos rfl]
  have hJ11 : inactiveDiag t 0 0 = 0 := by
    rw [ht0]
    simp [inactiveDiag, rows]
  have hpen : penaltyBlock s1'.data.inters 0 0 = 0 := by
    rw [e2]
    simp [penaltyBlock, e3]
  obtain ⟨k1, k2⟩ := h3
  have k1 := k1 0 (by simp [block])
  have k2 := k2 0 (by norm_num)
  simp only [block, List.not_mem_nil, or_self, if_false, Finset.sum_range_one, hJ10, hJ11, hpen, and_self, if_true, add_zero, one_mul, zero_mul] at k1 k2
  rw [e11] at k2
  rw [k2, mul_zero, zero_add, e10] at k1
  have hc1 : c 1 = a - b := by
    rw [k1]
    simp [point]
    ring
  have hc0 : c 0 = 0 := k2
  -- the second evaluation
  obtain ⟨out, o1, o2, o3, o4, o5, o6, o7, o8, o9, o10⟩ :=
    solve_spec wall (block k b) junk [point 0 a] (fun j => point 0 a j - c j) (before a) ⟨ops, hops⟩
  obtain ⟨s2, q1, q2⟩ := solve_seen o1
  have hs2 : s2 = s1' := by
    rw [evaluate, e0, Option.bind_some, evaluate] at q1
    exact (Option.some.inj q1).symm
  subst hs2
  obtain ⟨s3, r3, z, f0, f1, f2, f3, f4, f5, f6, f7, f8, f9, f10, f11⟩ :=
    wall_eval k b junk (fun j => point 0 a j - c j) (by simp [point, hc0]) s2 e1 y e2 e3 e4 e5 (by rw [hya]; exact ha)
  obtain ⟨hs3, hr3⟩ : s3 = out.seen ∧ r3 = out.residual := by
    have := Option.some.inj (f0.symm.trans q2)
    exact ⟨congrArg Prod.fst this, congrArg Prod.snd this⟩
  subst hs3 hr3
  have hzb : z.p 0 = b := by
    rw [f6]
    simp [point, hc1]
  have hzin : 0 ∈ z.inactive := (C35_active_set z f4 0).2 ⟨by omega, by rw [hzb]; exact hb.le, by rw [f7]; norm_num⟩
  have hu : out.u 0 = 0 := by
    rw [o2]
    simp [head, block, point, hc0]
  have hf : out.forces 0 = 0 := by
    obtain ⟨-, p1, -⟩ := o9 0 z (by rw [f2]; rfl)
    have hlen : out.live.data.inters.length = 1 := by rw [← o6, f2]; rfl
    obtain ⟨w, hw⟩ := List.length_eq_one_iff.1 hlen
    rw [hw, List.getElem?_cons_zero] at p1
    rw [o7, hw, Option.some.inj p1]
    simp [contactForce, wall, hzin]
  refine ⟨out, o1, fun j hj => ?_, hu, hf, ?_⟩
  · have hj' : j < 2 := by
      rw [o5, hn] at hj
      simpa [block] using hj
    have h10 : out.residual 0 = 0 := by
      rw [f10]
      simp [point, hc1]
    obtain rfl | rfl : j = 0 ∨ j = 1 := by omega
    · rw [h10, abs_zero]
    · rw [f11, abs_zero]
  · rw [hf]
    simp [block, hu]

/-- The hypotheses of the reversal are met: the residual and the gradient are defined and the correction exists. -/
example : ∃ (c r : ℕ → ℝ) (s1 : Live) (B : Blocks), residualFn wall (block 2 1) (fun _ => 0) (point 0 (-3)) (before (-3)) = some (s1, r) ∧
    gradient (block 2 1) (point 0 (-3)) s1.data = some B ∧ Correction (block 2 1) B 1 r c := by
  obtain ⟨ops, hops⟩ := reached_before (-3)
  obtain ⟨hi, hn⟩ := before_inters (-3)
  obtain ⟨s1, r, y, e0, e1, e2, e3, e4, e5, e6, e7, e8, e9, e10, e11⟩ :=
    wall_eval 2 1 (fun _ => 0) (point 0 (-3)) rfl (before (-3)) (hops ▸ inv_run ops) (held (-3)) hi rfl rfl rfl (by simp [held])
  have hin : y.inactive = [] := by
    rw [List.eq_nil_iff_forall_not_mem]
    intro d hd
    obtain ⟨k1, k2, -⟩ := (C35_active_set y e4 d).1 hd
    obtain rfl : d = 0 := by omega
    rw [e6] at k2
    simp [point] at k2
    linarith
  have ht : inactiveTdofs s1.data.refresh.offsets s1.data.inters 0 = some [] := by
    rw [e2]
    simp [inactiveTdofs, hin]
  refine ⟨fun j => if j = 1 then -4 else 0, r, s1, _, e0, by unfold gradient mergedJacobian; rw [ht]; rfl, ?_, ?_⟩
  · intro k hk
    obtain rfl : k = 0 := by simpa [block] using hk
    have hJ : stack s1.data.inters 0 0 = 1 := by
      rw [e2, stack, if_pos e3, if_pos (by omega)]
      unfold Inter.activeB
      rw [hin, if_neg (by simp), e8, if_pos rfl]
    simp [block, hJ, e10, point]
    norm_num
  · intro k hk
    obtain rfl : k = 0 := by omega
    simp [block, inactiveDiag, rows, e11]

/-- A step that stays in contact is balanced: the block pressed against the wall by the load `-1`, evaluated at its equilibrium. -/
example : ∃ out, solveMultipliers wall (block 2 (-1)) (fun _ => 0) [] (point 0 (-1)) (before (-3)) = some out ∧ Converged (block 2 (-1)) 0 out ∧
    ¬Suction out.seen.data.inters ∧ Balanced (block 2 (-1)) 0 out.u out.forces := by
  obtain ⟨ops, hops⟩ := reached_before (-3)
  obtain ⟨hi, hn⟩ := before_inters (-3)
  obtain ⟨s1, r, y, e0, e1, e2, e3, e4, e5, e6, e7, e8, e9, e10, e11⟩ :=
    wall_eval 2 (-1) (fun _ => 0) (point 0 (-1)) rfl (before (-3)) (hops ▸ inv_run ops) (held (-3)) hi rfl rfl rfl (by simp [held])
  obtain ⟨out, o1, o2, o3, o4, o5, o6, o7, o8, o9, o10⟩ := solve_spec wall (block 2 (-1)) (fun _ => 0) [] (point 0 (-1)) (before (-3)) ⟨ops, hops⟩
  obtain ⟨s2, q1, q2⟩ := solve_seen o1
  obtain rfl : before (-3) = s2 := Option.some.inj q1
  obtain ⟨hs3, hr3⟩ : s1 = out.seen ∧ r = out.residual := by
    have := Option.some.inj (e0.symm.trans q2)
    exact ⟨congrArg Prod.fst this, congrArg Prod.snd this⟩
  subst hs3 hr3
  have hc : Converged (block 2 (-1)) 0 out := by
    intro j hj
    have hj' : j < 2 := by
      rw [o5, hn] at hj
      simpa [block] using hj
    obtain rfl | rfl : j = 0 ∨ j = 1 := by omega
    · rw [e10]; simp [point]
    · rw [e11, abs_zero]
  have hno : ¬Suction out.seen.data.inters := by
    rintro ⟨i, z, d, hz, -, hd, hpos, -⟩
    rw [e2] at hz
    obtain rfl : i = 0 := by
      by_contra hne
      rw [List.getElem?_eq_none_iff.2 (by simp; omega)] at hz
      cases hz
    obtain rfl : y = z := by simpa using hz
    obtain rfl : d = 0 := by omega
    rw [e6] at hpos
    simp [point] at hpos
    linarith
  exact ⟨out, o1, hc, hno, (C95_balance_partial wall _ _ _ _ _ ⟨ops, hops⟩ 0 out o1 hc hno).1⟩

end Serac.C95
