import Verif.Model.MaterialDrivers
import Verif.Proofs.Tensor
import Verif.Props.C14
import Mathlib.Tactic.LinearCombination
import Mathlib.Analysis.Calculus.Deriv.Add
import Mathlib.Analysis.Calculus.Deriv.Mul
/-!
# C66: root finding and the drivers for material models

* `C66_root_partial`: what `find_root` returns; `C66_affine`, `C66_converges`: when it is a root; `C66_root_wrong`, `C66_scale_wrong`: when not.
* `C66_history`, `C66_lateral_partial`, `C66_point`: what the drivers record.
* `C66_linear`, `C66_linear_axial`: Hooke's law in uniaxial tension.
-/

noncomputable section
namespace Serac.C66
open Serac.Tensor Serac.Drivers

local notation "len" => Serac.Transform.norm

variable {n : ℕ}

/-! ## The linear solve -/

theorem forFrom_none {S : Type} (body : Fin n → S → Option S) (i : Fin n) (h : ∀ s, body i s = none) : ∀ (m lo : ℕ), n - lo = m → lo ≤ i → ∀ s, LU.forFrom n body lo s = none := by
  intro m
  induction m with
  | zero => intro lo h1 h2; have := i.2; omega
  | succ m ih =>
    intro lo h1 h2 s
    have hlt : lo < n := lt_of_le_of_lt h2 i.2
    rw [LU.forFrom, dif_pos hlt]
    rcases eq_or_lt_of_le h2 with h3 | h3
    · rw [show (⟨lo, hlt⟩ : Fin n) = i from Fin.ext h3, h]
      rfl
    · cases body ⟨lo, hlt⟩ s with
      | none => rfl
      | some s' => exact ih (lo + 1) (by omega) h3 s'

/-- `linear_solve` has a result only for regular matrices, and it is the solution. -/
theorem solve_spec (A : Matrix (Fin n) (Fin n) ℝ) (b x : Fin n → ℝ) (h : LU.linearSolve A b = some x) : A.det ≠ 0 ∧ A.mulVec x = b := by
  have hdet : A.det ≠ 0 := by
    intro h0
    unfold LU.linearSolve at h
    cases hf : LU.factorizeLu A with
    | none => rw [hf] at h; cases h
    | some f =>
      rw [hf, Option.bind_some] at h
      obtain ⟨hb, hm, hd, hl, hu⟩ := C14.C14_factors_partial A f hf
      have hdU : (Matrix.of f.U).det = 0 := by
        have h1 := congrArg Matrix.det hm
        rw [Matrix.det_mul] at h1
        have h2 : (A.submatrix f.P id).det = 0 := by
          have := Matrix.det_permute (Equiv.ofBijective f.P hb) A
          rw [h0, mul_zero] at this
          exact this
        have h3 : (Matrix.of f.L).det = 1 := by
          rw [Matrix.det_of_isLowerTriangular (M := Matrix.of f.L) (fun i j hij => hl i j hij)]
          exact Finset.prod_eq_one fun i _ => hd i
        rw [h2, h3, one_mul] at h1
        exact h1
      rw [Matrix.det_of_isUpperTriangular (M := Matrix.of f.U) (fun i j hij => hu i j hij), Finset.prod_eq_zero_iff] at hdU
      obtain ⟨i, -, hi⟩ := hdU
      have hi : f.U i i = 0 := hi
      unfold LU.solveFactors at h
      cases hy : LU.solveLower f.L b f.P with
      | none => rw [hy] at h; cases h
      | some y =>
        rw [hy, Option.bind_some, LU.solveUpper, LU.forDown] at h
        have hn := forFrom_none (fun k => LU.upperStep f.U y k.rev) i.rev (fun s => by
          rw [Fin.rev_rev, LU.upperStep]
          cases LU.forFrom n (fun j c => some (c - f.U i j • s j)) (i.val + 1) (y i) with
          | none => rfl
          | some c => rw [Option.bind_some, if_pos hi]) n 0 (by omega) (Nat.zero_le _) fun _ => 0
        rw [hn] at h
        cases h
  refine ⟨hdet, ?_⟩
  rcases C14.C14_solve_partial (V := ℝ) A hdet with h1 | h1
  · unfold LU.linearSolve at h
    rw [h1] at h
    cases h
  · obtain ⟨y, hy, hs⟩ := h1 b
    rw [h] at hy
    cases hy
    funext i
    simpa [Matrix.mulVec, dotProduct] using hs i

theorem solve_unique (A : Matrix (Fin n) (Fin n) ℝ) (hA : A.det ≠ 0) {x y : Fin n → ℝ} (h : A.mulVec x = A.mulVec y) : x = y := by
  have := congrArg (A⁻¹).mulVec h
  rwa [Matrix.mulVec_mulVec, Matrix.mulVec_mulVec, Matrix.nonsing_inv_mul _ (isUnit_iff_ne_zero.2 hA), Matrix.one_mulVec, Matrix.one_mulVec] at this

/-! ## `find_root` -/

/-- `y` follows `x` in Newton's method for `f` (values and Jacobians). -/
def Newton (f : Vec ℝ n → Option (Vec ℝ n × Mat ℝ n n)) (x y : Vec ℝ n) : Prop :=
  ∃ o, f x = some o ∧ Matrix.det o.2 ≠ 0 ∧ Matrix.mulVec o.2 (x - y) = o.1

/-- The residual of `x` is smaller than the tolerance. -/
def Small (f : Vec ℝ n → Option (Vec ℝ n × Mat ℝ n n)) (x : Vec ℝ n) : Prop := ∃ o, f x = some o ∧ len o.1 < 1 / 10 ^ 8

/-- `x` is found from `x0` in `k` steps of Newton's method, none of which started at a small residual. -/
inductive Steps (f : Vec ℝ n → Option (Vec ℝ n × Mat ℝ n n)) : ℕ → Vec ℝ n → Vec ℝ n → Prop
  | zero (x : Vec ℝ n) : Steps f 0 x x
  | succ {k : ℕ} {x y z : Vec ℝ n} : Newton f x y → ¬ Small f x → Steps f k y z → Steps f (k + 1) x z

theorem rootLoop_spec (f : Vec ℝ n → Option (Vec ℝ n × Mat ℝ n n)) : ∀ (m : ℕ) (x r : Vec ℝ n), rootLoop f m x = some r →
    ∃ k ≤ m, Steps f k x r ∧ (k = m ∨ Small f r) := by
  intro m
  induction m with
  | zero => intro x r h; cases h; exact ⟨0, le_rfl, .zero x, Or.inl rfl⟩
  | succ m ih =>
    intro x r h
    rw [rootLoop] at h
    cases ho : f x with
    | none => rw [ho] at h; cases h
    | some o =>
      rw [ho, Option.bind_some] at h
      by_cases hs : len o.1 < epsilon
      · rw [if_pos hs] at h
        cases h
        exact ⟨0, Nat.zero_le _, .zero x, Or.inr ⟨o, ho, hs⟩⟩
      · rw [if_neg hs] at h
        cases hd : LU.linearSolve o.2 o.1 with
        | none => rw [hd] at h; cases h
        | some d =>
          rw [hd, Option.bind_some] at h
          obtain ⟨k, hk, hst, he⟩ := ih _ r h
          obtain ⟨h1, h2⟩ := solve_spec o.2 o.1 d hd
          have hx : x - (fun i => x i - d i) = d := by funext i; simp
          refine ⟨k + 1, by omega, .succ ⟨o, ho, h1, by rw [hx]; exact h2⟩ ?_ hst, ?_⟩
          · rintro ⟨o', h3, h4⟩
            rw [ho] at h3
            cases h3
            exact hs h4
          · rcases he with rfl | he
            · exact Or.inl rfl
            · exact Or.inr he

/-- **C66 (partial), root finding**: whatever the function, a result of `find_root` has a residual below `1e-8`, or it is the tenth Newton iterate and no earlier iterate had
one.  Missing: a report in the second case (`C66_root_wrong`). -/
theorem C66_root_partial (f : Vec ℝ n → Option (Vec ℝ n × Mat ℝ n n)) (x0 r : Vec ℝ n) (h : findRoot f x0 = some r) :
    ∃ k ≤ 10, Steps f k x0 r ∧ (k = 10 ∨ Small f r) := rootLoop_spec f 10 x0 r h

/-- Linear solves with regular matrices in one or two unknowns. -/
theorem solve_some (hn : n ≤ 2) (A : Matrix (Fin n) (Fin n) ℝ) (hA : A.det ≠ 0) (b : Fin n → ℝ) : ∃ x, LU.linearSolve A b = some x ∧ A.mulVec x = b := by
  obtain ⟨x, hx, -⟩ := C14.C14_two (V := ℝ) hn A hA b
  exact ⟨x, hx, (solve_spec A b x hx).2⟩

theorem len_zero_vec : len (0 : Vec ℝ n) = 0 := by
  unfold Serac.Transform.norm
  rw [sqNormV_eq]
  simp

/-- **C66, linear equations**: for `A x = b` with regular `A` in one or two unknowns the result is the solution, unless the initial guess already has a residual below the tolerance,
in which case it is the initial guess. -/
theorem C66_affine (hn : n ≤ 2) (A : Matrix (Fin n) (Fin n) ℝ) (hA : A.det ≠ 0) (b x0 : Vec ℝ n) :
    ∃ r, findRoot (fun x => some (A.mulVec x - b, A)) x0 = some r ∧ (if len (A.mulVec x0 - b) < 1 / 10 ^ 8 then r = x0 else A.mulVec r = b) := by
  unfold findRoot
  rw [rootLoop, Option.bind_some]
  by_cases hs : len (A.mulVec x0 - b) < 1 / 10 ^ 8
  · exact ⟨x0, if_pos hs, by rw [if_pos hs]⟩
  · obtain ⟨d, hd, hm⟩ := solve_some hn A hA (A.mulVec x0 - b)
    refine ⟨fun i => x0 i - d i, ?_, ?_⟩
    · dsimp only
      rw [if_neg (by exact hs), hd, Option.bind_some, rootLoop, Option.bind_some]
      have hz : A.mulVec (fun i => x0 i - d i) - b = 0 := by
        have : (fun i => x0 i - d i) = x0 - d := rfl
        rw [this, Matrix.mulVec_sub, hm]
        abel
      dsimp only
      rw [hz, len_zero_vec, if_pos (by unfold epsilon; norm_num)]
    · rw [if_neg hs]
      have : (fun i => x0 i - d i) = x0 - d := rfl
      rw [this, Matrix.mulVec_sub, hm]
      abel

theorem converges_loop (hn : n ≤ 2) (f : Vec ℝ n → Option (Vec ℝ n × Mat ℝ n n)) (S : Vec ℝ n → Prop) (c : ℝ) (hc : 0 < c)
    (hdef : ∀ x, S x → ∃ o, f x = some o ∧ Matrix.det o.2 ≠ 0)
    (hstep : ∀ x y o p, S x → Newton f x y → f x = some o → f y = some p → c * len p.1 ≤ (c * len o.1) ^ 2)
    (hstay : ∀ x y, S x → Newton f x y → S y) :
    ∀ (m : ℕ) (x : Vec ℝ n) (o : Vec ℝ n × Mat ℝ n n) (q : ℝ), S x → f x = some o → c * len o.1 ≤ q → 0 ≤ q →
      ∃ r p, rootLoop f m x = some r ∧ f r = some p ∧ (len p.1 < 1 / 10 ^ 8 ∨ c * len p.1 ≤ q ^ 2 ^ m) := by
  intro m
  induction m with
  | zero => intro x o q _ ho hq _; exact ⟨x, o, rfl, ho, Or.inr (by simpa using hq)⟩
  | succ m ih =>
    intro x o q hx ho hq hq0
    rw [rootLoop, ho, Option.bind_some]
    by_cases hs : len o.1 < epsilon
    · exact ⟨x, o, if_pos hs, ho, Or.inl hs⟩
    · obtain ⟨o', ho', hdet⟩ := hdef x hx
      rw [ho] at ho'
      cases ho'
      obtain ⟨d, hd, hm⟩ := solve_some hn o.2 hdet o.1
      have hN : Newton f x (fun i => x i - d i) := ⟨o, ho, hdet, by
        have hx : x - (fun i => x i - d i) = d := by funext i; simp
        rw [hx]; exact hm⟩
      have hy := hstay x _ hx hN
      obtain ⟨p, hp, -⟩ := hdef _ hy
      have hl : 0 ≤ c * len o.1 := mul_nonneg hc.le (Real.sqrt_nonneg _)
      have h1 := hstep x _ o p hx hN ho hp
      have h2 : c * len p.1 ≤ q ^ 2 := le_trans h1 (pow_le_pow_left₀ hl hq 2)
      obtain ⟨r, p', h3, h4, h5⟩ := ih _ p (q ^ 2) hy hp h2 (sq_nonneg q)
      refine ⟨r, p', ?_, h4, ?_⟩
      · rw [if_neg hs, hd, Option.bind_some]
        exact h3
      · rwa [← pow_mul, ← pow_succ'] at h5

/-- **C66, convergence**: if Newton's method squares the (scaled) residual on a region it does not leave, and starts at one half, ten passes suffice: the result is defined and its
residual is below the tolerance. -/
theorem C66_converges (hn : n ≤ 2) (f : Vec ℝ n → Option (Vec ℝ n × Mat ℝ n n)) (S : Vec ℝ n → Prop) (c : ℝ) (hc : 1 / 2 ^ 200 < c)
    (hdef : ∀ x, S x → ∃ o, f x = some o ∧ Matrix.det o.2 ≠ 0)
    (hstep : ∀ x y o p, S x → Newton f x y → f x = some o → f y = some p → c * len p.1 ≤ (c * len o.1) ^ 2)
    (hstay : ∀ x y, S x → Newton f x y → S y) (x0 : Vec ℝ n) (o : Vec ℝ n × Mat ℝ n n) (hx : S x0) (ho : f x0 = some o) (h0 : c * len o.1 ≤ 1 / 2) :
    ∃ r, findRoot f x0 = some r ∧ Small f r := by
  have hc0 : 0 < c := lt_trans (by positivity) hc
  obtain ⟨r, p, h1, h2, h3⟩ := converges_loop hn f S c hc0 hdef hstep hstay 10 x0 o (1 / 2) hx ho h0 (by norm_num)
  refine ⟨r, h1, p, h2, ?_⟩
  rcases h3 with h3 | h3
  · exact h3
  · by_contra h4
    push Not at h4
    have h5 : (1 : ℝ) / 2 ^ 200 * (1 / 10 ^ 8) < (1 / 2) ^ 2 ^ 10 := by
      calc (1 : ℝ) / 2 ^ 200 * (1 / 10 ^ 8) < c * (1 / 10 ^ 8) := by
            apply mul_lt_mul_of_pos_right hc; positivity
        _ ≤ c * len p.1 := mul_le_mul_of_nonneg_left h4 hc0.le
        _ ≤ _ := h3
    have h6 : ((1 : ℝ) / 2) ^ 2 ^ 10 ≤ (1 / 2) ^ 227 := pow_le_pow_of_le_one (by norm_num) (by norm_num) (by norm_num)
    have h7 : ((1 : ℝ) / 2) ^ 227 < 1 / 2 ^ 200 * (1 / 10 ^ 8) := by norm_num
    exact absurd (h5.trans_le h6) (not_lt.2 h7.le)

/-- `x ^ 2` in one unknown with its derivative. -/
def square : Vec ℝ 1 → Option (Vec ℝ 1 × Mat ℝ 1 1) := fun x => some (fun _ => x 0 ^ 2, fun _ _ => 2 * x 0)

theorem len_one (v : Vec ℝ 1) : len v = |v 0| := by
  unfold Serac.Transform.norm
  rw [sqNormV_eq, Fin.sum_univ_one, Real.sqrt_mul_self_eq_abs]

theorem square_loop : ∀ (m : ℕ) (s : ℝ), 1 / 10 ^ 4 * 2 ^ m ≤ s → rootLoop square m (fun _ => s) = some fun _ => s / 2 ^ m := by
  intro m
  induction m with
  | zero => intro s _; simp [rootLoop]
  | succ m ih =>
    intro s hs
    have hpos : (1 : ℝ) / 10 ^ 4 * 2 ^ (m + 1) ≥ 1 / 10 ^ 4 := by
      have : (1 : ℝ) ≤ 2 ^ (m + 1) := one_le_pow₀ (by norm_num)
      nlinarith
    have hs0 : 0 < s := by linarith [show (0 : ℝ) < 1 / 10 ^ 4 by norm_num]
    rw [rootLoop, square, Option.bind_some]
    have hbig : ¬ len (fun _ : Fin 1 => s ^ 2) < epsilon := by
      rw [len_one, abs_of_nonneg (sq_nonneg _), epsilon, not_lt]
      calc (1 : ℝ) / 10 ^ 8 = (1 / 10 ^ 4) ^ 2 := by norm_num
        _ ≤ s ^ 2 := pow_le_pow_left₀ (by norm_num) (by linarith) 2
    have hdet : Matrix.det (fun _ _ => 2 * s : Matrix (Fin 1) (Fin 1) ℝ) ≠ 0 := by
      have h := Matrix.det_fin_one (Matrix.of fun _ _ : Fin 1 => 2 * s)
      change Matrix.det (Matrix.of fun _ _ : Fin 1 => 2 * s) ≠ 0
      rw [h]
      exact (mul_pos two_pos hs0).ne'
    obtain ⟨d, hd, hm⟩ := solve_some (by norm_num) _ hdet (fun _ => s ^ 2)
    have hd0 : d = fun _ => s / 2 := by
      funext i
      have := congrFun hm 0
      simp only [Matrix.mulVec, dotProduct, Fin.sum_univ_one] at this
      rw [Subsingleton.elim i 0]
      field_simp at this ⊢
      linarith
    dsimp only
    rw [if_neg hbig, hd, Option.bind_some, hd0]
    have h2 : (fun _ : Fin 1 => s - s / 2) = fun _ => s / 2 := by funext; ring
    have h3 := ih (s / 2) (by rw [pow_succ (2 : ℝ)] at hs; linarith)
    rw [h2, h3]
    congr 1
    funext
    rw [pow_succ]
    field_simp

/-- **C66 fails for double roots**: from every start `s ≥ 0.2` the root of `x ^ 2` is not found: the result is `s / 1024`, with a residual above the tolerance, and nothing tells. -/
theorem C66_root_wrong (s : ℝ) (hs : 1 / 5 ≤ s) : findRoot square (fun _ => s) = some (fun _ => s / 1024) ∧ ¬ Small square (fun _ => s / 1024) := by
  constructor
  · have := square_loop 10 s (by norm_num; linarith)
    rw [findRoot, this]
    norm_num
  · rintro ⟨o, ho, hl⟩
    cases ho
    rw [len_one, abs_of_nonneg (sq_nonneg _)] at hl
    have : (1 / 5120 : ℝ) ^ 2 ≤ (s / 1024) ^ 2 := pow_le_pow_left₀ (by norm_num) (by linarith) 2
    norm_num at this hl
    linarith

/-- **C66, the tolerance is absolute**: for every function and every initial guess, root or not, there is a unit of measurement (a factor for the values) for which the guess is returned. -/
theorem C66_scale_wrong (f : Vec ℝ n → Vec ℝ n × Mat ℝ n n) (x0 : Vec ℝ n) :
    ∃ δ > (0 : ℝ), ∀ s, 0 < s → s ≤ δ → findRoot (fun x => some (s • (f x).1, s • (f x).2)) x0 = some x0 := by
  have hl : 0 ≤ len (f x0).1 := Real.sqrt_nonneg _
  refine ⟨1 / 10 ^ 8 / (len (f x0).1 + 1), by positivity, fun s hs hle => ?_⟩
  have hn : len (s • (f x0).1) = s * len (f x0).1 := by
    unfold Serac.Transform.norm
    rw [sqNormV_eq, sqNormV_eq]
    have : ∀ i, (s • (f x0).1) i * (s • (f x0).1) i = s ^ 2 * ((f x0).1 i * (f x0).1 i) := fun i => by simp only [Pi.smul_apply, smul_eq_mul]; ring
    simp only [this]
    rw [← Finset.mul_sum, Real.sqrt_mul (sq_nonneg s), Real.sqrt_sq hs.le]
  rw [findRoot, rootLoop, Option.bind_some]
  apply if_pos
  dsimp only
  rw [hn, epsilon]
  calc s * len (f x0).1 < s * (len (f x0).1 + 1) := by apply mul_lt_mul_of_pos_left _ hs; linarith
    _ ≤ 1 / 10 ^ 8 / (len (f x0).1 + 1) * (len (f x0).1 + 1) := mul_le_mul_of_nonneg_right hle (by linarith)
    _ = 1 / 10 ^ 8 := by field_simp

/-! ## The drivers -/

/-- The state before record `i`. -/
def before {St : Type} (initial : St) (h : List (Record St)) : ℕ → St
  | 0 => initial
  | i + 1 => (h[i]?.map Record.state).getD initial

theorem uniaxialLoop_spec {St : Type} (M : Material St) (exx : ℝ → ℝ) (dt : ℝ) : ∀ (m : ℕ) (t : ℝ) (st : St) (du : Mat ℝ 3 3) (h : List (Record St)),
    uniaxialLoop M exx dt m t st du = some h →
    h.length = m ∧ ∀ (i : ℕ) (r : Record St), h[i]? = some r →
      r.t = t + i * dt ∧ M.respond r.t (before st h i) r.du = some (r.state, r.stress) ∧
      ∃ x0 x, findRoot (lateral M exx r.t (before st h i)) x0 = some x ∧ r.du = axes (exx r.t) (x 0) (x 1) ∧
        x0 = (match i with | 0 => ![du 1 1, du 2 2] | j + 1 => (h[j]?.map fun q => ![q.du 1 1, q.du 2 2]).getD ![0, 0]) := by
  intro m
  induction m with
  | zero =>
    intro t st du h e
    cases e
    exact ⟨rfl, fun i r hr => by simp at hr⟩
  | succ m ih =>
    intro t st du h e
    rw [uniaxialLoop] at e
    cases hx : findRoot (lateral M exx t st) ![du 1 1, du 2 2] with
    | none => rw [hx] at e; cases e
    | some x =>
      rw [hx, Option.bind_some] at e
      dsimp only at e
      cases hr : M.respond t st (axes (exx t) (x 0) (x 1)) with
      | none => rw [hr] at e; cases e
      | some q =>
        rw [hr, Option.bind_some] at e
        cases hl : uniaxialLoop M exx dt m (t + dt) q.1 (axes (exx t) (x 0) (x 1)) with
        | none => rw [hl] at e; cases e
        | some l =>
          rw [hl] at e
          cases e
          obtain ⟨h1, h2⟩ := ih _ _ _ l hl
          refine ⟨by simp [h1], ?_⟩
          intro i r hir
          cases i with
          | zero =>
            simp only [List.getElem?_cons_zero, Option.some.injEq] at hir
            subst hir
            exact ⟨by simp, hr, ![du 1 1, du 2 2], x, hx, rfl, rfl⟩
          | succ i =>
            rw [List.getElem?_cons_succ] at hir
            obtain ⟨h3, h4, x0, x', h5, h6, h7⟩ := h2 i r hir
            have hb : before st (⟨t, axes (exx t) (x 0) (x 1), q.2, q.1⟩ :: l) (i + 1) = before q.1 l i := by
              cases i with
              | zero => rfl
              | succ i =>
                simp only [before, List.getElem?_cons_succ]
                have hi : i < l.length := by
                  have := (List.getElem?_eq_some_iff.1 hir).1
                  omega
                rw [List.getElem?_eq_getElem hi]
                rfl
            refine ⟨by rw [h3]; push_cast; ring, by rw [hb]; exact h4, x0, x', by rw [hb]; exact h5, h6, ?_⟩
            rw [h7]
            cases i with
            | zero => rfl
            | succ i =>
              simp only [List.getElem?_cons_succ]

/-- **C66, the history of `uniaxial_stress_test`**: for every material, number of steps and strain history, the records are evenly spaced in time, carry the prescribed axial strain
and no shear, and are what the material answers when it is driven through the recorded strains from the initial state: the search leaves no trace in the state. -/
theorem C66_history {St : Type} (tmax : ℝ) (steps : ℕ) (M : Material St) (initial : St) (exx : ℝ → ℝ) (h : List (Record St)) (e : uniaxial tmax steps M initial exx = some h) :
    h.length = steps ∧ ∀ (i : ℕ) (r : Record St), h[i]? = some r →
      r.t = i * (tmax / (steps - 1)) ∧ r.du 0 0 = exx r.t ∧ (∀ j k, j ≠ k → r.du j k = 0) ∧ M.respond r.t (before initial h i) r.du = some (r.state, r.stress) := by
  obtain ⟨h1, h2⟩ := uniaxialLoop_spec M exx _ steps 0 initial _ h e
  refine ⟨h1, fun i r hr => ?_⟩
  obtain ⟨h3, h4, x0, x, -, h6, -⟩ := h2 i r hr
  refine ⟨by rw [h3]; ring, by rw [h6]; simp [axes], fun j k hjk => by rw [h6]; simp [axes, hjk], h4⟩

/-- The lateral stresses of a record are below the tolerance. -/
def Uniaxial {St : Type} (r : Record St) : Prop := Real.sqrt (r.stress 1 1 ^ 2 + r.stress 2 2 ^ 2) < 1 / 10 ^ 8

theorem small_uniaxial {St : Type} (M : Material St) (exx : ℝ → ℝ) (t : ℝ) (st : St) (x : Vec ℝ 2) (r : Record St) (hr : M.respond t st (axes (exx t) (x 0) (x 1)) = some (r.state, r.stress))
    (h : Small (lateral M exx t st) x) : Uniaxial r := by
  obtain ⟨o, ho, hl⟩ := h
  unfold lateral at ho
  dsimp only at ho
  rw [hr] at ho
  cases ho
  unfold Uniaxial
  unfold Serac.Transform.norm at hl
  rw [sqNormV_eq] at hl
  simp only [Fin.sum_univ_two, Matrix.cons_val_zero, Matrix.cons_val_one] at hl
  rwa [sq, sq]

/-- **C66 (partial), uniaxial stress**: the lateral stresses of every record are below `1e-8`, or ten Newton steps were not enough at that record.  Missing: a report of the latter. -/
theorem C66_lateral_partial {St : Type} (tmax : ℝ) (steps : ℕ) (M : Material St) (initial : St) (exx : ℝ → ℝ) (h : List (Record St)) (e : uniaxial tmax steps M initial exx = some h)
    (i : ℕ) (r : Record St) (hr : h[i]? = some r) :
    Uniaxial r ∨ ∃ x0, Steps (lateral M exx r.t (before initial h i)) 10 x0 ![r.du 1 1, r.du 2 2] := by
  obtain ⟨-, h2⟩ := uniaxialLoop_spec M exx _ steps 0 initial _ h e
  obtain ⟨-, h4, x0, x, h5, h6, -⟩ := h2 i r hr
  obtain ⟨k, -, hs, hk⟩ := C66_root_partial _ _ _ h5
  rcases hk with rfl | hk
  · right
    refine ⟨x0, ?_⟩
    have : (![r.du 1 1, r.du 2 2] : Vec ℝ 2) = x := by
      rw [h6]
      funext j
      fin_cases j <;> simp [axes]
    rw [this]
    exact hs
  · left
    rw [h6] at h4
    exact small_uniaxial M exx r.t _ x r h4 hk

/-- **C66, the history of `single_quadrature_point_test`.** -/
theorem C66_point {St In Out : Type} (tmax : ℝ) (steps : ℕ) (mat : St → In → Option (St × Out)) (initial : St) (f : ℝ → In) (h : List (Point St In Out))
    (e : singlePoint tmax steps mat initial f = some h) :
    h.length = steps ∧ ∀ (i : ℕ) (r : Point St In Out), h[i]? = some r →
      r.t = i * (tmax / (steps - 1)) ∧ r.input = f r.t ∧
      mat (match i with | 0 => initial | j + 1 => (h[j]?.map Point.state).getD initial) r.input = some (r.state, r.output) := by
  have key : ∀ (dt : ℝ) (m : ℕ) (t : ℝ) (st : St) (h : List (Point St In Out)), pointLoop mat f dt m t st = some h → h.length = m ∧ ∀ (i : ℕ) (r : Point St In Out), h[i]? = some r →
      r.t = t + i * dt ∧ r.input = f r.t ∧ mat (match i with | 0 => st | j + 1 => (h[j]?.map Point.state).getD st) r.input = some (r.state, r.output) := by
    intro dt m
    induction m with
    | zero =>
      intro t st h e
      cases e
      exact ⟨rfl, fun i r hr => by simp at hr⟩
    | succ m ih =>
      intro t st h e
      rw [pointLoop] at e
      cases hq : mat st (f t) with
      | none => rw [hq] at e; cases e
      | some q =>
        rw [hq, Option.bind_some] at e
        cases hl : pointLoop mat f dt m (t + dt) q.1 with
        | none => rw [hl] at e; cases e
        | some l =>
          rw [hl] at e
          cases e
          obtain ⟨h1, h2⟩ := ih _ _ l hl
          refine ⟨by simp [h1], ?_⟩
          intro i r hir
          cases i with
          | zero =>
            simp only [List.getElem?_cons_zero, Option.some.injEq] at hir
            subst hir
            exact ⟨by simp, rfl, hq⟩
          | succ i =>
            rw [List.getElem?_cons_succ] at hir
            obtain ⟨h3, h4, h5⟩ := h2 i r hir
            refine ⟨by rw [h3]; push_cast; ring, h4, ?_⟩
            rw [← h5]
            cases i with
            | zero => rfl
            | succ i =>
              simp only [List.getElem?_cons_succ]
              have hi : i < l.length := by
                have := (List.getElem?_eq_some_iff.1 hir).1
                omega
              rw [List.getElem?_eq_getElem hi]
              rfl
  obtain ⟨h1, h2⟩ := key _ steps 0 initial h e
  exact ⟨h1, fun i r hr => ⟨by rw [(h2 i r hr).1]; ring, (h2 i r hr).2⟩⟩

/-! ## Hooke's law -/

/-- Young's modulus and Poisson's ratio. -/
def young (K G : ℝ) : ℝ := 9 * K * G / (3 * K + G)
def poisson (K G : ℝ) : ℝ := (3 * K - 2 * G) / (2 * (3 * K + G))

theorem linear_axes (K G a b c : ℝ) (i j : Fin 3) : Mat.linearIsotropic K G (axes a b c) i j =
    if i = j then (K - (2 / 3) * G) * (a + b + c) + 2 * G * (![a, b, c] : Vec ℝ 3) i else 0 := by
  unfold Mat.linearIsotropic
  dsimp only
  have ht : tr (fun i j => 1 / 2 * (transpose (axes a b c) i j + axes a b c i j) : Mat ℝ 3 3) = a + b + c := by
    unfold tr
    rw [accum_eq, Fin.sum_univ_three]
    simp [axes, transpose]
    ring
  rw [ht, identity_eq]
  fin_cases i <;> fin_cases j <;> simp [axes, transpose] <;> exact Or.inl (by ring)

/-- The derivative of the lateral stresses by the lateral strains is the matrix carried along. -/
theorem C66_tangent (K G a b c : ℝ) (k l : Fin 2) :
    HasDerivAt (fun s => Mat.linearIsotropic K G (axes a ((![b, c] : Vec ℝ 2) 0 + if l = 0 then s else 0) ((![b, c] : Vec ℝ 2) 1 + if l = 1 then s else 0)) k.succ k.succ)
      ((linear K G).tangent 0 () (axes a b c) k l) 0 := by
  have h := ((hasDerivAt_id (0 : ℝ)).mul_const ((K - (2 / 3) * G) + if k = l then 2 * G else 0)).const_add (Mat.linearIsotropic K G (axes a b c) k.succ k.succ)
  rw [one_mul] at h
  refine h.congr_of_eventuallyEq (Filter.Eventually.of_forall fun s => ?_)
  simp only [linear_axes, if_true, id]
  fin_cases k <;> fin_cases l <;> simp <;> ring

/-- **C66, Hooke's law**: for every record of a linear isotropic material, whatever the lateral strains: `σ_xx = E ε_xx + ν (σ_yy + σ_zz)`. -/
theorem C66_linear_axial (K G a b c : ℝ) (hK : 0 < K) (hG : 0 < G) :
    Mat.linearIsotropic K G (axes a b c) 0 0 = young K G * a + poisson K G * (Mat.linearIsotropic K G (axes a b c) 1 1 + Mat.linearIsotropic K G (axes a b c) 2 2) := by
  have h : 3 * K + G ≠ 0 := by positivity
  simp only [linear_axes, if_true, young, poisson]
  simp
  field_simp
  ring

/-- **C66, the uniaxial test of a linear isotropic material**: for every strain history it has a result; at every record the strains are `ε, -ν ε, -ν ε` and the stress is `E ε` in the axial
direction and zero otherwise, exactly, or the lateral strains of the record before already had lateral stresses below the tolerance and were kept; in both cases the axial stress differs from `E ε`
by less than `2e-8 |ν|`. -/
theorem C66_linear (K G : ℝ) (hK : 0 < K) (hG : 0 < G) (tmax : ℝ) (steps : ℕ) (exx : ℝ → ℝ) :
    ∃ h, uniaxial tmax steps (linear K G) () exx = some h ∧ ∀ (i : ℕ) (r : Record Unit), h[i]? = some r →
      ((r.du = axes (exx r.t) (-poisson K G * exx r.t) (-poisson K G * exx r.t) ∧ r.stress = axes (young K G * exx r.t) 0 0) ∨
        (Uniaxial r ∧ r.du 1 1 = (match i with | 0 => 0 | j + 1 => (h[j]?.map fun q => q.du 1 1).getD 0) ∧
          r.du 2 2 = (match i with | 0 => 0 | j + 1 => (h[j]?.map fun q => q.du 2 2).getD 0))) ∧
      |r.stress 0 0 - young K G * exx r.t| ≤ 2 / 10 ^ 8 * |poisson K G| := by
  have h3 : 3 * K + G ≠ 0 := by positivity
  let lam := K - (2 / 3) * G
  let A : Matrix (Fin 2) (Fin 2) ℝ := fun i j => lam + (if i = j then 2 * G else 0)
  have hA : A.det ≠ 0 := by
    rw [Matrix.det_fin_two]
    have : A 0 0 * A 1 1 - A 0 1 * A 1 0 = 4 * G * (K + G / 3) := by simp [A, lam]; ring
    rw [this]
    positivity
  have hlat : ∀ t st, lateral (linear K G) exx t st = fun x => some (A.mulVec x - fun _ => -(lam * exx t), A) := by
    intro t st
    funext x
    unfold lateral linear
    dsimp only
    rw [Option.map_some]
    refine congrArg some (Prod.ext ?_ rfl)
    funext i
    simp only [linear_axes, if_true]
    fin_cases i <;> simp [A, lam, Matrix.mulVec, dotProduct, Fin.sum_univ_two] <;> ring
  have hdef : ∀ (dt : ℝ) (m : ℕ) (t : ℝ) (st : Unit) (du : Mat ℝ 3 3), ∃ h, uniaxialLoop (linear K G) exx dt m t st du = some h := by
    intro dt m
    induction m with
    | zero => intro t st du; exact ⟨[], rfl⟩
    | succ m ih =>
      intro t st du
      obtain ⟨x, hx, -⟩ := C66_affine (by norm_num) A hA (fun _ => -(lam * exx t)) ![du 1 1, du 2 2]
      obtain ⟨l, hl⟩ := ih (t + dt) () (axes (exx t) (x 0) (x 1))
      refine ⟨⟨t, axes (exx t) (x 0) (x 1), Mat.linearIsotropic K G (axes (exx t) (x 0) (x 1)), ()⟩ :: l, ?_⟩
      rw [uniaxialLoop, hlat, hx, Option.bind_some]
      change (Option.map _ (uniaxialLoop (linear K G) exx dt m (t + dt) () (axes (exx t) (x 0) (x 1)))) = _
      rw [hl]
      rfl
  obtain ⟨h, hh⟩ := hdef (tmax / ((steps : ℝ) - 1)) steps 0 () fun _ _ => 0
  refine ⟨h, hh, fun i r hr => ?_⟩
  obtain ⟨-, hs⟩ := uniaxialLoop_spec _ exx _ steps 0 () _ h hh
  obtain ⟨-, h4, x0, x, h5, h6, h7⟩ := hs i r hr
  rw [hlat] at h5
  obtain ⟨y, hy, hc⟩ := C66_affine (by norm_num) A hA (fun _ => -(lam * exx r.t)) x0
  rw [h5] at hy
  cases hy
  have hstress : r.stress = Mat.linearIsotropic K G (axes (exx r.t) (x 0) (x 1)) := by
    rw [h6] at h4
    have : some ((), Mat.linearIsotropic K G (axes (exx r.t) (x 0) (x 1))) = some (r.state, r.stress) := h4
    rw [Option.some.injEq, Prod.mk.injEq] at this
    exact this.2.symm
  have hax := C66_linear_axial K G (exx r.t) (x 0) (x 1) hK hG
  rw [← hstress] at hax
  have hboth : Uniaxial r → |r.stress 0 0 - young K G * exx r.t| ≤ 2 / 10 ^ 8 * |poisson K G| := by
    intro hu
    rw [hax, add_sub_cancel_left, abs_mul, mul_comm]
    apply mul_le_mul_of_nonneg_right _ (abs_nonneg _)
    unfold Uniaxial at hu
    have h1 : |r.stress 1 1| ≤ Real.sqrt (r.stress 1 1 ^ 2 + r.stress 2 2 ^ 2) := Real.abs_le_sqrt (by nlinarith [sq_nonneg (r.stress 2 2)])
    have h2 : |r.stress 2 2| ≤ Real.sqrt (r.stress 1 1 ^ 2 + r.stress 2 2 ^ 2) := Real.abs_le_sqrt (by nlinarith [sq_nonneg (r.stress 1 1)])
    calc |r.stress 1 1 + r.stress 2 2| ≤ |r.stress 1 1| + |r.stress 2 2| := abs_add_le _ _
      _ ≤ 1 / 10 ^ 8 + 1 / 10 ^ 8 := by linarith
      _ = 2 / 10 ^ 8 := by norm_num
  by_cases hsm : len (A.mulVec x0 - fun _ => -(lam * exx r.t)) < 1 / 10 ^ 8
  · rw [if_pos hsm] at hc
    subst hc
    have hu : Uniaxial r := by
      apply small_uniaxial (linear K G) exx r.t (before () h i) x r (by rw [← h6]; exact h4)
      rw [hlat]
      exact ⟨_, rfl, hsm⟩
    refine ⟨Or.inr ⟨hu, ?_, ?_⟩, hboth hu⟩
    · have : r.du 1 1 = x 0 := by rw [h6]; simp [axes]
      rw [this, h7]
      cases i with
      | zero => simp
      | succ j => cases hq : h[j]? <;> simp [hq]
    · have : r.du 2 2 = x 1 := by rw [h6]; simp [axes]
      rw [this, h7]
      cases i with
      | zero => simp
      | succ j => cases hq : h[j]? <;> simp [hq]
  · rw [if_neg hsm] at hc
    have hx : x = fun _ => -poisson K G * exx r.t := by
      apply solve_unique A hA
      rw [hc]
      funext k
      simp only [Matrix.mulVec, dotProduct, Fin.sum_univ_two, A, lam, poisson]
      fin_cases k <;> simp <;> field_simp <;> ring
    have hz : r.stress = axes (young K G * exx r.t) 0 0 := by
      rw [hstress, hx]
      funext p q
      rw [linear_axes]
      unfold axes young poisson
      fin_cases p <;> fin_cases q <;> simp <;> field_simp <;> ring
    refine ⟨Or.inl ⟨by rw [h6, hx], hz⟩, ?_⟩
    apply hboth
    unfold Uniaxial
    rw [hz]
    simp [axes]

/-! ## Examples -/

/-- `x ^ 2 = 2`, from `x = 2`: the hypotheses of `C66_converges` hold with `c = 1 / 4` on `x ≥ 1`. -/
def two : Vec ℝ 1 → Option (Vec ℝ 1 × Mat ℝ 1 1) := fun x => some (fun _ => x 0 ^ 2 - 2, fun _ _ => 2 * x 0)

example : ∃ r, findRoot two (fun _ => 2) = some r ∧ Small two r := by
  have hN : ∀ x y, 1 ≤ x 0 → Newton two x y → y 0 = x 0 / 2 + 1 / x 0 := by
    rintro x y hx ⟨o, ho, -, hm⟩
    cases ho
    have := congrFun hm 0
    simp only [Matrix.mulVec, dotProduct, Fin.sum_univ_one, Pi.sub_apply] at this
    field_simp
    nlinarith
  refine C66_converges (by norm_num) two (fun x => 1 ≤ x 0) (1 / 4) (by norm_num) ?_ ?_ ?_ (fun _ => 2) (fun _ => 2 ^ 2 - 2, fun _ _ => 2 * 2) (by norm_num) rfl ?_
  · intro x hx
    refine ⟨_, rfl, ?_⟩
    have h := Matrix.det_fin_one (Matrix.of fun _ _ : Fin 1 => 2 * x 0)
    change Matrix.det (Matrix.of fun _ _ : Fin 1 => 2 * x 0) ≠ 0
    rw [h]
    exact (mul_pos two_pos (lt_of_lt_of_le one_pos hx)).ne'
  · intro x y o p hx hy ho hp
    cases ho
    cases hp
    dsimp only
    rw [len_one, len_one, hN x y hx hy]
    have hx0 : (0 : ℝ) < x 0 := by linarith
    have e : (x 0 / 2 + 1 / x 0) ^ 2 - 2 = (x 0 ^ 2 - 2) ^ 2 / (4 * x 0 ^ 2) := by field_simp; ring
    rw [e, abs_of_nonneg (by positivity), mul_pow, sq_abs]
    have h1 : (4 * x 0 ^ 2)⁻¹ ≤ 1 / 4 := by
      rw [inv_le_comm₀ (by positivity) (by norm_num)]
      nlinarith
    have h2 := mul_le_mul_of_nonneg_left h1 (sq_nonneg (x 0 ^ 2 - 2))
    have h3 : (1 : ℝ) / 4 * ((x 0 ^ 2 - 2) ^ 2 * (4 * x 0 ^ 2)⁻¹) ≤ 1 / 4 * ((x 0 ^ 2 - 2) ^ 2 * (1 / 4)) := mul_le_mul_of_nonneg_left h2 (by norm_num)
    calc (1 : ℝ) / 4 * ((x 0 ^ 2 - 2) ^ 2 / (4 * x 0 ^ 2)) = 1 / 4 * ((x 0 ^ 2 - 2) ^ 2 * (4 * x 0 ^ 2)⁻¹) := by ring
      _ ≤ 1 / 4 * ((x 0 ^ 2 - 2) ^ 2 * (1 / 4)) := h3
      _ = (1 / 4) ^ 2 * (x 0 ^ 2 - 2) ^ 2 := by ring
  · intro x y hx hy
    rw [hN x y hx hy]
    have hx0 : (0 : ℝ) < x 0 := by linarith
    have : 0 ≤ (x 0 - 1) ^ 2 + 1 := by positivity
    field_simp
    nlinarith
  · rw [len_one]
    norm_num

/-- Stretching steel by one thousandth: there is a history of three records, one half way at half the strain. -/
example : ∃ h, uniaxial 1 3 (linear 160 80) () (fun t => t / 1000) = some h ∧ h.length = 3 := by
  obtain ⟨h, hh, -⟩ := C66_linear 160 80 (by norm_num) (by norm_num) 1 3 fun t => t / 1000
  exact ⟨h, hh, (C66_history 1 3 _ () _ h hh).1⟩

end Serac.C66
