import Verif.Model.DirectSolver
import Verif.Props.C98
import Mathlib.LinearAlgebra.Matrix.ToLin
import Mathlib.LinearAlgebra.FiniteDimensional.Lemmas
/-!
# C99: direct solvers solve the system of blocks they are given

Spec.  After `SetOperator` with a system of blocks, `Mult` returns the vector on which the blocks give the right hand side (`action`), whatever operators were set before;
systems that cannot be handled are refused.
-/

noncomputable section
namespace Serac.C99
open Serac.Direct
open scoped BigOperators
open Classical

/-! ## Specification -/

/-- What a block does to its part of a vector. -/
def act : Block → (ℕ → ℝ) → ℕ → ℝ
  | .zero, _, _ => 0
  | .hypre A, x, k => ∑ l ∈ Finset.range A.cols, A.e k l * x l
  | .other _ _ f, x, k => f x k

/-- `mfem::BlockOperator::Mult`: row `k` of block row `i`. -/
def action (b : BlockOp) (x : ℕ → ℝ) (i k : ℕ) : ℝ := ∑ j ∈ Finset.range b.nc, act (b.blk i j) (fun l => x (b.co j + l)) k

/-- Height and width of a block. -/
def Fits (rows cols : ℕ) : Block → Prop
  | .zero => True
  | .hypre A => A.rows = rows ∧ A.cols = cols
  | .other m n _ => m = rows ∧ n = cols

/-- A block operator as mfem lets one build it. -/
structure Legal (b : BlockOp) : Prop where
  ro0 : b.ro 0 = 0
  co0 : b.co 0 = 0
  ro : ∀ i, b.ro i ≤ b.ro (i + 1)
  co : ∀ j, b.co j ≤ b.co (j + 1)
  fits : ∀ i, i < b.nr → ∀ j, j < b.nc → Fits (b.ro (i + 1) - b.ro i) (b.co (j + 1) - b.co j) (b.blk i j)

/-- Every block is null or an assembled matrix. -/
def Assembled (b : BlockOp) : Prop := ∀ i, i < b.nr → ∀ j, j < b.nc → ∀ m n f, b.blk i j ≠ .other m n f

/-- Every block row and block column with a positive size has a block. -/
def Covered (b : BlockOp) : Prop :=
  (∀ i, i < b.nr → b.ro i < b.ro (i + 1) → ∃ j, j < b.nc ∧ b.blk i j ≠ .zero) ∧ (∀ j, j < b.nc → b.co j < b.co (j + 1) → ∃ i, i < b.nr ∧ b.blk i j ≠ .zero)

/-- `x` solves the system with right hand side `r`. -/
def Solution (b : BlockOp) (r x : ℕ → ℝ) : Prop := ∀ i, i < b.nr → ∀ k, b.ro i + k < b.ro (i + 1) → action b x i k = r (b.ro i + k)

/-- As many unknowns as equations, and only the zero vector is taken to zero. -/
def Regular (b : BlockOp) : Prop := b.ro b.nr = b.co b.nc ∧ ∀ x, Solution b (fun _ => 0) x → ∀ c, c < b.co b.nc → x c = 0

/-- What is assumed of the library: it solves systems with regular matrices. -/
def Factors (lu : Mat → (ℕ → ℝ) → ℕ → ℝ) : Prop := ∀ A : Mat, A.rows = A.cols →
  (∀ x : ℕ → ℝ, (∀ r, r < A.rows → ∑ c ∈ Finset.range A.cols, A.e r c * x c = 0) → ∀ c, c < A.cols → x c = 0) →
  ∀ (b : ℕ → ℝ) (r : ℕ), r < A.rows → ∑ c ∈ Finset.range A.cols, A.e r c * lu A b c = b r

/-! ## Collecting the blocks -/

/-- The pointer that is stored for a block. -/
def pointer : Block → Option Mat
  | .zero => none
  | .hypre A => some A
  | .other _ _ _ => none

theorem collectRow_spec (b : BlockOp) (i : ℕ) (js : List ℕ) (t : Table) :
    (∃ j ∈ js, ∃ m n f, b.blk i j = .other m n f) ∧ collectRow b i js t = .error .notHypre ∨
    (∀ j ∈ js, ∀ m n f, b.blk i j ≠ .other m n f) ∧ collectRow b i js t = .ok fun i' j' => if i' = i ∧ j' ∈ js then pointer (b.blk i' j') else t i' j' := by
  induction js generalizing t with
  | nil => right; simp [collectRow]
  | cons j js ih =>
    unfold collectRow
    have key : ∀ a, a = pointer (b.blk i j) → (∀ m n f, b.blk i j ≠ .other m n f) →
        (∃ j' ∈ j :: js, ∃ m n f, b.blk i j' = .other m n f) ∧ collectRow b i js (t.set i j a) = .error .notHypre ∨
        (∀ j' ∈ j :: js, ∀ m n f, b.blk i j' ≠ .other m n f) ∧
          collectRow b i js (t.set i j a) = .ok fun i' j' => if i' = i ∧ j' ∈ j :: js then pointer (b.blk i' j') else t i' j' := by
      intro a ha hno
      rcases ih (t.set i j a) with ⟨⟨j', hj', h⟩, h2⟩ | ⟨h1, h2⟩
      · exact Or.inl ⟨⟨j', by simp [hj'], h⟩, h2⟩
      · refine Or.inr ⟨fun j' hj' => ?_, ?_⟩
        · rcases List.mem_cons.1 hj' with rfl | hj'
          · exact hno
          · exact h1 j' hj'
        · rw [h2]
          congr 1
          funext i' j'
          by_cases hi : i' = i
          · subst hi
            by_cases hm : j' ∈ js
            · simp [hm]
            · by_cases hj : j' = j
              · subst hj
                simp [hm, Table.set, ha]
              · simp [hm, hj, Table.set]
          · simp [hi, Table.set]
    cases hb : b.blk i j with
    | zero => exact key none (by rw [hb]; rfl) (by rw [hb]; simp)
    | hypre A => exact key (some A) (by rw [hb]; rfl) (by rw [hb]; simp)
    | other m n f => exact Or.inl ⟨⟨j, by simp, m, n, f, hb⟩, rfl⟩

theorem collect_spec (b : BlockOp) (is : List ℕ) (t : Table) :
    (∃ i ∈ is, ∃ j, j < b.nc ∧ ∃ m n f, b.blk i j = .other m n f) ∧ collect b is t = .error .notHypre ∨
    (∀ i ∈ is, ∀ j, j < b.nc → ∀ m n f, b.blk i j ≠ .other m n f) ∧
      collect b is t = .ok fun i' j' => if i' ∈ is ∧ j' < b.nc then pointer (b.blk i' j') else t i' j' := by
  induction is generalizing t with
  | nil => right; simp [collect]
  | cons i is ih =>
    unfold collect
    rcases collectRow_spec b i (List.range b.nc) t with ⟨⟨j, hj, h⟩, h2⟩ | ⟨h1, h2⟩
    · rw [h2]
      exact Or.inl ⟨⟨i, by simp, j, List.mem_range.1 hj, h⟩, rfl⟩
    · rw [h2]
      rcases ih (fun i' j' => if i' = i ∧ j' ∈ List.range b.nc then pointer (b.blk i' j') else t i' j') with ⟨⟨i', hi', h⟩, h3⟩ | ⟨h3, h4⟩
      · exact Or.inl ⟨⟨i', by simp [hi'], h⟩, h3⟩
      · refine Or.inr ⟨fun i' hi' j hj => ?_, ?_⟩
        · rcases List.mem_cons.1 hi' with rfl | hi'
          · exact h1 j (List.mem_range.2 hj)
          · exact h3 i' hi' j hj
        · refine h4.trans ?_
          congr 1
          funext i' j'
          by_cases hj : j' < b.nc
          · by_cases hm : i' ∈ is
            · simp [hm, hj]
            · by_cases hi : i' = i <;> simp [hm, hj, hi]
          · simp [hj]

/-! ## The layout -/

theorem rowSize_of {b : BlockOp} (h : Legal b) (ha : Assembled b) {t : Table} (ht : ∀ i, i < b.nr → ∀ j, j < b.nc → t i j = pointer (b.blk i j)) {i : ℕ} (hi : i < b.nr) :
    rowSize b.nc t i = if ∃ j, j < b.nc ∧ b.blk i j ≠ .zero then b.ro (i + 1) - b.ro i else 0 := by
  unfold rowSize
  cases hf : (List.range b.nc).findSome? fun j => (t i j).map Mat.rows with
  | none =>
    rw [List.findSome?_eq_none_iff] at hf
    rw [if_neg]
    · rfl
    · rintro ⟨j, hj, hne⟩
      have := hf j (List.mem_range.2 hj)
      rw [ht i hi j hj] at this
      cases hb : b.blk i j with
      | zero => exact hne hb
      | hypre A => rw [hb] at this; simp [pointer] at this
      | other m n f => exact ha i hi j hj m n f hb
  | some v =>
    obtain ⟨j, hj, hv⟩ := List.exists_of_findSome?_eq_some hf
    have hj' := List.mem_range.1 hj
    rw [ht i hi j hj'] at hv
    cases hb : b.blk i j with
    | zero => rw [hb] at hv; simp [pointer] at hv
    | hypre A =>
      rw [hb] at hv
      simp [pointer] at hv
      have hfit := h.fits i hi j hj'
      rw [hb] at hfit
      rw [if_pos ⟨j, hj', by rw [hb]; simp⟩, ← hfit.1, hv]
      rfl
    | other m n f => exact absurd hb (ha i hi j hj' m n f)

theorem colSize_of {b : BlockOp} (h : Legal b) (ha : Assembled b) {t : Table} (ht : ∀ i, i < b.nr → ∀ j, j < b.nc → t i j = pointer (b.blk i j)) {j : ℕ} (hj : j < b.nc) :
    colSize b.nr t j = if ∃ i, i < b.nr ∧ b.blk i j ≠ .zero then b.co (j + 1) - b.co j else 0 := by
  unfold colSize
  cases hf : (List.range b.nr).findSome? fun i => (t i j).map Mat.cols with
  | none =>
    rw [List.findSome?_eq_none_iff] at hf
    rw [if_neg]
    · rfl
    · rintro ⟨i, hi, hne⟩
      have := hf i (List.mem_range.2 hi)
      rw [ht i hi j hj] at this
      cases hb : b.blk i j with
      | zero => exact hne hb
      | hypre A => rw [hb] at this; simp [pointer] at this
      | other m n f => exact ha i hi j hj m n f hb
  | some v =>
    obtain ⟨i, hi, hv⟩ := List.exists_of_findSome?_eq_some hf
    have hi' := List.mem_range.1 hi
    rw [ht i hi' j hj] at hv
    cases hb : b.blk i j with
    | zero => rw [hb] at hv; simp [pointer] at hv
    | hypre A =>
      rw [hb] at hv
      simp [pointer] at hv
      have hfit := h.fits i hi' j hj
      rw [hb] at hfit
      rw [if_pos ⟨i, hi', by rw [hb]; simp⟩, ← hfit.2, hv]
      rfl
    | other m n f => exact absurd hb (ha i hi' j hj m n f)

theorem offset_le {size o : ℕ → ℕ} (hm : ∀ i, o i ≤ o (i + 1)) {n : ℕ} (h : ∀ i, i < n → size i ≤ o (i + 1) - o i) : offset size n ≤ o n := by
  induction n with
  | zero => simp [offset]
  | succ n ih =>
    have h1 := ih fun i hi => h i (by omega)
    have h2 := h n (by omega)
    have h3 := hm n
    unfold offset at h1 ⊢
    rw [Finset.sum_range_succ]
    omega

theorem offset_eq_iff {size o : ℕ → ℕ} (h0 : o 0 = 0) (hm : ∀ i, o i ≤ o (i + 1)) {n : ℕ} (h : ∀ i, i < n → size i ≤ o (i + 1) - o i) :
    offset size n = o n ↔ ∀ i, i < n → size i = o (i + 1) - o i := by
  induction n with
  | zero => simp [offset, h0]
  | succ n ih =>
    have h1 := offset_le hm (n := n) fun i hi => h i (by omega)
    have h2 := h n (by omega)
    have h3 := hm n
    have hi := ih fun i hi => h i (by omega)
    have e : offset size (n + 1) = offset size n + size n := by unfold offset; rw [Finset.sum_range_succ]
    rw [e]
    constructor
    · intro heq i hin
      rcases Nat.lt_succ_iff_lt_or_eq.1 hin with hlt | rfl
      · exact hi.1 (by omega) i hlt
      · omega
    · intro hall
      have := hi.2 fun i hlt => hall i (by omega)
      have := hall n (by omega)
      omega

/-- What the monolithic matrix is made from. -/
theorem build_cases (junk : Table) (b : BlockOp) (h : Legal b) :
    (b.nr ≠ b.nc ∧ buildMonolithicMatrix junk b = .error .nonSquare) ∨ (b.nr = b.nc ∧ ¬Assembled b ∧ buildMonolithicMatrix junk b = .error .notHypre) ∨
    (b.nr = b.nc ∧ Assembled b ∧ ∃ t : Table, (∀ i, i < b.nr → ∀ j, j < b.nc → t i j = pointer (b.blk i j)) ∧
      (∀ i, i < b.nr → ∀ j, j < b.nc → ∀ A, t i j = some A → A.rows = rowSize b.nc t i ∧ A.cols = colSize b.nr t j) ∧
      buildMonolithicMatrix junk b = fromBlocks b.nr b.nc t) := by
  unfold buildMonolithicMatrix
  by_cases hn : b.nr = b.nc
  · rw [if_neg (by simp [hn])]
    rcases collect_spec b (List.range b.nr) junk with ⟨⟨i, hi, j, hj, m, n, f, hb⟩, h2⟩ | ⟨h1, h2⟩
    · rw [h2]
      exact Or.inr (Or.inl ⟨hn, fun hA => hA i (List.mem_range.1 hi) j hj m n f hb, rfl⟩)
    · have hA : Assembled b := fun i hi j hj => h1 i (List.mem_range.2 hi) j hj
      have ht : ∀ i, i < b.nr → ∀ j, j < b.nc → (if i ∈ List.range b.nr ∧ j < b.nc then pointer (b.blk i j) else junk i j) = pointer (b.blk i j) :=
        fun i hi j hj => if_pos ⟨List.mem_range.2 hi, hj⟩
      refine Or.inr (Or.inr ⟨hn, hA, _, ht, fun i hi j hj A hAt => ?_, by rw [h2]; rfl⟩)
      beta_reduce at hAt
      rw [ht i hi j hj] at hAt
      rw [rowSize_of h hA ht hi, colSize_of h hA ht hj]
      have hf := h.fits i hi j hj
      cases hb : b.blk i j with
      | zero => rw [hb] at hAt; simp [pointer] at hAt
      | hypre A' =>
        rw [hb] at hAt hf
        simp [pointer] at hAt
        subst hAt
        rw [if_pos ⟨j, hj, by rw [hb]; simp⟩, if_pos ⟨i, hi, by rw [hb]; simp⟩]
        exact hf
      | other m n f => exact absurd hb (hA i hi j hj m n f)
  · exact Or.inl ⟨hn, by rw [if_pos hn]⟩

theorem fromBlocks_ok {nr nc : ℕ} {t : Table} (h : ∀ i, i < nr → ∀ j, j < nc → ∀ A, t i j = some A → A.rows = rowSize nc t i ∧ A.cols = colSize nr t j) :
    ∃ M, fromBlocks nr nc t = .ok M := by
  unfold fromBlocks
  exact ⟨_, if_pos h⟩

/-- **C99, what is refused.** -/
theorem C99_refused (junk : Table) (op : Op) (s : Solver) (h : ∀ b, op = .block b → Legal b) :
    (∀ e, s.setOperator junk op = .error e → e = .nonSquare ∨ e = .notHypre) ∧
    ((∃ s', s.setOperator junk op = .ok s') ↔ (∃ A, op = .hypre A) ∨ ∃ b, op = .block b ∧ b.nr = b.nc ∧ Assembled b) := by
  cases op with
  | other => simp [Solver.setOperator]
  | hypre A => simp [Solver.setOperator]
  | block b =>
    unfold Solver.setOperator
    dsimp only
    rcases build_cases junk b (h b rfl) with ⟨h1, h2⟩ | ⟨h1, h2, h3⟩ | ⟨h1, h2, t, -, h4, h5⟩
    · rw [h2]
      simp [Except.map, h1]
    · rw [h3]
      simp [Except.map, h2]
    · obtain ⟨M, hM⟩ := fromBlocks_ok h4
      rw [h5, hM]
      simp [Except.map, h1, h2]

/-- **C99, layout.**  The matrix has the size of the block system exactly if no block row or block column is empty. -/
theorem C99_layout (junk : Table) (b : BlockOp) (h : Legal b) (M : Mat) (hM : buildMonolithicMatrix junk b = .ok M) :
    (M.rows = b.ro b.nr ∧ M.cols = b.co b.nc) ↔ Covered b := by
  rcases build_cases junk b h with ⟨-, h2⟩ | ⟨-, -, h3⟩ | ⟨h1, hA, t, ht, h4, h5⟩
  · rw [h2] at hM; cases hM
  · rw [h3] at hM; cases hM
  · rw [h5] at hM
    unfold fromBlocks at hM
    simp only [if_pos h4] at hM
    obtain rfl := Except.ok.inj hM
    dsimp only
    have hr : ∀ i, i < b.nr → rowSize b.nc t i ≤ b.ro (i + 1) - b.ro i := fun i hi => by rw [rowSize_of h hA ht hi]; split <;> omega
    have hcs : ∀ j, j < b.nc → colSize b.nr t j ≤ b.co (j + 1) - b.co j := fun j hj => by rw [colSize_of h hA ht hj]; split <;> omega
    rw [offset_eq_iff h.ro0 h.ro hr, offset_eq_iff h.co0 h.co hcs]
    unfold Covered
    refine and_congr (forall_congr' fun i => forall_congr' fun hi => ?_) (forall_congr' fun j => forall_congr' fun hj => ?_)
    · rw [rowSize_of h hA ht hi]
      have := h.ro i
      split
      · rename_i hx; exact ⟨fun _ _ => hx, fun _ => rfl⟩
      · rename_i hx; exact ⟨fun he hlt => by omega, fun hi' => by by_contra hne; exact hx (hi' (by omega))⟩
    · rw [colSize_of h hA ht hj]
      have := h.co j
      split
      · rename_i hx; exact ⟨fun _ _ => hx, fun _ => rfl⟩
      · rename_i hx; exact ⟨fun he hlt => by omega, fun hi' => by by_contra hne; exact hx (hi' (by omega))⟩

/-! ## What the matrix does -/

theorem offset_of {size o : ℕ → ℕ} (h0 : o 0 = 0) (hm : ∀ i, o i ≤ o (i + 1)) {n : ℕ} (h : ∀ i, i < n → size i = o (i + 1) - o i) (i : ℕ) (hi : i ≤ n) : offset size i = o i :=
  (offset_eq_iff h0 hm fun k hk => (h k (by omega)).le).2 fun k hk => h k (by omega)

theorem offset_mono (size : ℕ → ℕ) {i j : ℕ} (h : i ≤ j) : offset size i ≤ offset size j :=
  Finset.sum_le_sum_of_subset (Finset.range_subset_range.2 h)

theorem offset_succ (size : ℕ → ℕ) (i : ℕ) : offset size (i + 1) = offset size i + size i := Finset.sum_range_succ _ _

theorem window (f : ℕ → ℝ) {a c N : ℕ} (hN : c ≤ N) : (∑ r ∈ Finset.range N, if a ≤ r ∧ r < c then f r else 0) = ∑ l ∈ Finset.range (c - a), f (a + l) := by
  rw [← Finset.sum_filter, ← Finset.sum_Ico_eq_sum_range]
  refine Finset.sum_congr ?_ fun _ _ => rfl
  ext r
  simp only [Finset.mem_filter, Finset.mem_range, Finset.mem_Ico]
  omega

/-- Block columns that are not empty. -/
def ColumnsCovered (b : BlockOp) : Prop := ∀ j, j < b.nc → b.co j < b.co (j + 1) → ∃ i, i < b.nr ∧ b.blk i j ≠ .zero

/-- Rows of the matrix are rows of the blocks. -/
theorem rows_of {junk : Table} {b : BlockOp} (h : Legal b) {M : Mat} (hM : buildMonolithicMatrix junk b = .ok M) (hcov : ColumnsCovered b) :
    ∃ R : ℕ → ℕ, M.rows = offset R b.nr ∧ M.cols = b.co b.nc ∧ (∀ i, i < b.nr → R i = if ∃ j, j < b.nc ∧ b.blk i j ≠ .zero then b.ro (i + 1) - b.ro i else 0) ∧
      ∀ (x : ℕ → ℝ) (i : ℕ), i < b.nr → ∀ k, k < R i → ∑ c ∈ Finset.range M.cols, M.e (offset R i + k) c * x c = action b x i k := by
  rcases build_cases junk b h with ⟨-, h2⟩ | ⟨-, -, h3⟩ | ⟨h1, hA, t, ht, h4, h5⟩
  · rw [h2] at hM; cases hM
  · rw [h3] at hM; cases hM
  · rw [h5] at hM
    unfold fromBlocks at hM
    simp only [if_pos h4] at hM
    obtain rfl := Except.ok.inj hM
    have hC : ∀ j, j < b.nc → colSize b.nr t j = b.co (j + 1) - b.co j := by
      intro j hj
      rw [colSize_of h hA ht hj]
      split
      · rfl
      · rename_i hx
        by_contra hne
        exact hx (hcov j hj (by omega))
    have hco := offset_of h.co0 h.co hC
    refine ⟨rowSize b.nc t, rfl, hco _ le_rfl, fun i hi => rowSize_of h hA ht hi, fun x i hi k hk => ?_⟩
    dsimp only
    rw [hco _ le_rfl]
    have e1 : ∀ c, c < b.co b.nc → (∑ i' ∈ Finset.range b.nr, ∑ j ∈ Finset.range b.nc,
        if offset (rowSize b.nc t) i' ≤ offset (rowSize b.nc t) i + k ∧ offset (rowSize b.nc t) i + k < offset (rowSize b.nc t) (i' + 1) ∧
          offset (colSize b.nr t) j ≤ c ∧ c < offset (colSize b.nr t) (j + 1) then
        (t i' j).elim 0 fun A => A.e (offset (rowSize b.nc t) i + k - offset (rowSize b.nc t) i') (c - offset (colSize b.nr t) j) else 0) * x c =
        ∑ j ∈ Finset.range b.nc, if b.co j ≤ c ∧ c < b.co (j + 1) then ((t i j).elim 0 fun A => A.e k (c - b.co j)) * x c else 0 := by
      intro c hc
      rw [Finset.sum_eq_single i]
      · rw [Finset.sum_mul]
        refine Finset.sum_congr rfl fun j hj => ?_
        have hj' := Finset.mem_range.1 hj
        rw [hco j hj'.le, hco (j + 1) hj', offset_succ, Nat.add_sub_cancel_left]
        by_cases hw : b.co j ≤ c ∧ c < b.co (j + 1)
        · rw [if_pos ⟨by omega, by omega, hw.1, hw.2⟩, if_pos hw]
        · rw [if_neg (fun h' => hw h'.2.2), if_neg hw, zero_mul]
      · intro i' hi' hne
        refine Finset.sum_eq_zero fun j _ => if_neg fun h' => ?_
        rcases Nat.lt_or_gt_of_ne hne with hlt | hgt
        · have := offset_mono (rowSize b.nc t) (show i' + 1 ≤ i by omega)
          omega
        · have := offset_mono (rowSize b.nc t) (show i + 1 ≤ i' by omega)
          rw [offset_succ] at this
          omega
      · intro hn
        exact absurd (Finset.mem_range.2 hi) hn
    rw [Finset.sum_congr rfl fun c hc => e1 c (Finset.mem_range.1 hc), Finset.sum_comm]
    unfold action
    refine Finset.sum_congr rfl fun j hj => ?_
    have hj' := Finset.mem_range.1 hj
    have hle : b.co (j + 1) ≤ b.co b.nc := by
      rw [← hco _ hj', ← hco _ le_rfl]
      exact offset_mono _ hj'
    rw [window (fun c => ((t i j).elim 0 fun A => A.e k (c - b.co j)) * x c) hle, ht i hi j hj']
    have hf := h.fits i hi j hj'
    cases hb : b.blk i j with
    | zero => simp [pointer, act]
    | hypre A =>
      rw [hb] at hf
      simp only [pointer, Option.elim_some, Nat.add_sub_cancel_left, act, hf.2]
    | other m n f => exact absurd hb (hA i hi j hj' m n f)

/-- **C99, action.**  The monolithic matrix does what the blocks do. -/
theorem C99_action (junk : Table) (b : BlockOp) (h : Legal b) (hcov : Covered b) (M : Mat) (hM : buildMonolithicMatrix junk b = .ok M) (x : ℕ → ℝ) (i : ℕ) (hi : i < b.nr) (k : ℕ)
    (hk : b.ro i + k < b.ro (i + 1)) : ∑ c ∈ Finset.range M.cols, M.e (b.ro i + k) c * x c = action b x i k := by
  obtain ⟨R, h1, h2, h3, h4⟩ := rows_of h hM hcov.2
  have hR : ∀ i, i < b.nr → R i = b.ro (i + 1) - b.ro i := by
    intro i hi
    rw [h3 i hi]
    split
    · rfl
    · rename_i hx
      by_contra hne
      exact hx (hcov.1 i hi (by omega))
  have := h4 x i hi k (by rw [hR i hi]; omega)
  rwa [offset_of h.ro0 h.ro hR i hi.le] at this

theorem act_congr {b : Block} {rows cols : ℕ} (hf : Fits rows cols b) (ha : ∀ m n f, b ≠ .other m n f) {x y : ℕ → ℝ} (h : ∀ l, l < cols → x l = y l) (k : ℕ) : act b x k = act b y k := by
  cases b with
  | zero => rfl
  | hypre A => exact Finset.sum_congr rfl fun l hl => by rw [h l (by have := Finset.mem_range.1 hl; rw [hf.2] at this; exact this)]
  | other m n f => exact absurd rfl (ha m n f)

theorem act_zero {b : Block} {rows cols : ℕ} (hf : Fits rows cols b) (ha : ∀ m n f, b ≠ .other m n f) {x : ℕ → ℝ} (h : ∀ l, l < cols → x l = 0) (k : ℕ) : act b x k = 0 := by
  rw [act_congr hf ha (y := fun _ => 0) h]
  cases b with
  | zero => rfl
  | hypre A => simp [act]
  | other m n f => exact absurd rfl (ha m n f)

theorem mono_of {o : ℕ → ℕ} (hm : ∀ i, o i ≤ o (i + 1)) {i j : ℕ} (h : i ≤ j) : o i ≤ o j := monotone_nat_of_le_succ hm h

/-- A matrix with fewer rows than columns takes a vector other than zero to zero. -/
theorem wide (rows cols : ℕ) (e : ℕ → ℕ → ℝ) (h : rows < cols) : ∃ x : ℕ → ℝ, (∀ r, r < rows → ∑ c ∈ Finset.range cols, e r c * x c = 0) ∧ ∃ c, c < cols ∧ x c ≠ 0 := by
  let L : (Fin cols → ℝ) →ₗ[ℝ] (Fin rows → ℝ) := Matrix.mulVecLin (Matrix.of fun r c => e r c)
  have hk : LinearMap.ker L ≠ ⊥ := LinearMap.ker_ne_bot_of_finrank_lt (by simpa using h)
  obtain ⟨y, hy, hne⟩ := Submodule.exists_mem_ne_zero_of_ne_bot hk
  refine ⟨C98.ext y, fun r hr => ?_, ?_⟩
  · have := congrFun (LinearMap.mem_ker.1 hy) ⟨r, hr⟩
    rw [Finset.sum_range]
    simp only [L, Matrix.mulVecLin_apply, Matrix.mulVec, dotProduct, Matrix.of_apply, Pi.zero_apply] at this
    rw [← this]
    exact Finset.sum_congr rfl fun c _ => by unfold C98.ext; rw [dif_pos c.2]
  · obtain ⟨c, hc⟩ := Function.ne_iff.1 hne
    exact ⟨c, c.2, by unfold C98.ext; rw [dif_pos c.2]; exact hc⟩

/-- No block row or block column of a regular system is empty. -/
theorem regular_covered {junk : Table} {b : BlockOp} (h : Legal b) (hA : Assembled b) {M : Mat} (hM : buildMonolithicMatrix junk b = .ok M) (hr : Regular b) : Covered b := by
  have hcol : ColumnsCovered b := by
    intro j hj hlt
    by_contra hno
    push Not at hno
    have := hr.2 (fun c => if c = b.co j then 1 else 0) ?_ (b.co j) (hlt.trans_le (mono_of h.co hj))
    · simp at this
    · intro i hi k hk
      refine Finset.sum_eq_zero fun j' hj' => ?_
      have hj'' := Finset.mem_range.1 hj'
      by_cases hjj : j' = j
      · subst hjj
        rw [hno i hi]
        rfl
      · refine act_zero (h.fits i hi j' hj'') (hA i hi j' hj'') (fun l hl => if_neg ?_) k
        rcases Nat.lt_or_gt_of_ne hjj with h1 | h1
        · have := mono_of h.co (show j' + 1 ≤ j by omega)
          omega
        · have := mono_of h.co (show j + 1 ≤ j' by omega)
          omega
  refine ⟨fun i hi hlt => ?_, hcol⟩
  obtain ⟨R, h1, h2, h3, h4⟩ := rows_of h hM hcol
  by_contra hno
  have hsize : ∀ i, i < b.nr → R i ≤ b.ro (i + 1) - b.ro i := fun i hi => by rw [h3 i hi]; split <;> omega
  have hlt' : M.rows < M.cols := by
    rw [h1, h2, ← hr.1]
    refine lt_of_le_of_ne (offset_le h.ro hsize) fun he => ?_
    have := (offset_eq_iff h.ro0 h.ro hsize).1 he i hi
    rw [h3 i hi, if_neg hno] at this
    omega
  obtain ⟨x, x1, c, c1, c2⟩ := wide M.rows M.cols M.e hlt'
  refine c2 (hr.2 x (fun i' hi' k hk => ?_) c (by rw [← h2]; exact c1))
  by_cases hx : ∃ j, j < b.nc ∧ b.blk i' j ≠ .zero
  · have hRi := h3 i' hi'
    rw [if_pos hx] at hRi
    rw [← h4 x i' hi' k (by omega)]
    refine x1 _ ?_
    rw [h1]
    have := offset_mono R (show i' + 1 ≤ b.nr from hi')
    rw [offset_succ] at this
    omega
  · push Not at hx
    exact Finset.sum_eq_zero fun j hj => by rw [hx j (Finset.mem_range.1 hj)]; rfl

theorem setOperators_last (junk : Table) (ops : List Op) (op : Op) (s s' : Solver) (h : Solver.setOperators junk (ops ++ [op]) s = .ok s') :
    ∃ s1 : Solver, s1.setOperator junk op = .ok s' := by
  induction ops generalizing s with
  | nil =>
    simp only [List.nil_append, Solver.setOperators] at h
    cases h1 : s.setOperator junk op with
    | error e => rw [h1] at h; cases h
    | ok s2 => rw [h1] at h; exact ⟨s, h1.trans h⟩
  | cons o ops ih =>
    simp only [List.cons_append, Solver.setOperators] at h
    cases h1 : s.setOperator junk o with
    | error e => rw [h1] at h; cases h
    | ok s2 => rw [h1] at h; exact ih s2 h

/-- Rows of a system of blocks, by their position. -/
theorem row_position {o : ℕ → ℕ} (h0 : o 0 = 0) {n r : ℕ} (hr : r < o n) : ∃ i k, i < n ∧ r = o i + k ∧ o i + k < o (i + 1) := by
  induction n with
  | zero => omega
  | succ n ih =>
    by_cases h : r < o n
    · obtain ⟨i, k, h1, h2⟩ := ih h
      exact ⟨i, k, by omega, h2⟩
    · exact ⟨n, r - o n, by omega, by omega, by omega⟩

/-- **C99, solves.**  Whatever operators were set before, the result for the last one is the solution of its system, and the only one. -/
theorem C99_solves (junk : Table) (lu : Mat → (ℕ → ℝ) → ℕ → ℝ) (hlu : Factors lu) (ops : List Op) (b : BlockOp) (h : Legal b) (hr : Regular b) (s s' : Solver)
    (hs : Solver.setOperators junk (ops ++ [.block b]) s = .ok s') (r : ℕ → ℝ) :
    ∃ x, s'.mult lu r = .ok x ∧ Solution b r x ∧ ∀ y, Solution b r y → ∀ c, c < b.co b.nc → y c = x c := by
  obtain ⟨s1, h1⟩ := setOperators_last junk ops _ s s' hs
  obtain ⟨hn, hA⟩ : b.nr = b.nc ∧ Assembled b := by
    rcases ((C99_refused junk (.block b) s1 fun b' hb => by cases hb; exact h).2.1 ⟨s', h1⟩) with ⟨A, hA⟩ | ⟨b', hb, h2⟩
    · cases hA
    · cases hb; exact h2
  unfold Solver.setOperator at h1
  dsimp only at h1
  cases hM : buildMonolithicMatrix junk b with
  | error e => rw [hM] at h1; cases h1
  | ok M =>
    rw [hM] at h1
    obtain rfl := Except.ok.inj h1
    have hcov := regular_covered h hA hM hr
    obtain ⟨l1, l2⟩ := (C99_layout junk b h M hM).2 hcov
    have hsol := hlu M (by rw [l1, l2, hr.1]) (fun x hx c hc => hr.2 x (fun i hi k hk => by
      rw [← C99_action junk b h hcov M hM x i hi k hk]
      exact hx _ (by rw [l1]; exact hk.trans_le (mono_of h.ro hi))) c (by rw [← l2]; exact hc)) r
    refine ⟨lu M r, rfl, fun i hi k hk => ?_, fun y hy c hc => ?_⟩
    · rw [← C99_action junk b h hcov M hM _ i hi k hk]
      exact hsol _ (by rw [l1]; exact hk.trans_le (mono_of h.ro hi))
    · have := hr.2 (fun c => y c - lu M r c) (fun i hi k hk => ?_) c hc
      · linarith
      · rw [← C99_action junk b h hcov M hM _ i hi k hk]
        simp only [mul_sub, Finset.sum_sub_distrib]
        rw [hsol _ (by rw [l1]; exact hk.trans_le (mono_of h.ro hi)), C99_action junk b h hcov M hM _ i hi k hk, hy i hi k hk, sub_self]

/-- **C99, no operator.**  Without an operator the solvers refuse. -/
theorem C99_unset (lu : Mat → (ℕ → ℝ) → ℕ → ℝ) (r : ℕ → ℝ) : (({} : Solver).mult lu r) = .error .noOperator := rfl

/-! ## The systems of contact -/

/-- The block operator of a contact iteration (solid_mechanics_contact.hpp:134-166): all four blocks are assembled matrices. -/
def contactOp (n m : ℕ) (B : Contact.Blocks) : BlockOp :=
  { nr := 2, nc := 2
    ro := fun i => if i = 0 then 0 else if i = 1 then n else n + m
    co := fun i => if i = 0 then 0 else if i = 1 then n else n + m
    blk := fun i j => .hypre ⟨if i = 0 then n else m, if j = 0 then n else m, if i = 0 then (if j = 0 then B.J00 else B.J01) else (if j = 0 then B.J10 else B.J11)⟩ }

theorem contact_legal (n m : ℕ) (B : Contact.Blocks) : Legal (contactOp n m B) := by
  refine ⟨rfl, rfl, fun i => ?_, fun i => ?_, fun i hi j hj => ?_⟩
  · simp only [contactOp]; split <;> split <;> simp_all
  · simp only [contactOp]; split <;> split <;> simp_all
  · have hi' : i < 2 := hi
    have hj' : j < 2 := hj
    obtain rfl | rfl : i = 0 ∨ i = 1 := by omega
    all_goals obtain rfl | rfl : j = 0 ∨ j = 1 := by omega
    all_goals simp [contactOp, Fits]

theorem contact_solution (H : Contact.Host) (m : ℕ) (B : Contact.Blocks) (r c : ℕ → ℝ) : Solution (contactOp H.n m B) r c ↔ C95.Correction H B m r c := by
  unfold Solution C95.Correction
  have e0 : ∀ k, action (contactOp H.n m B) c 0 k = (∑ j ∈ Finset.range H.n, B.J00 k j * c j) + ∑ l ∈ Finset.range m, B.J01 k l * c (H.n + l) := by
    intro k
    simp [action, contactOp, act, Finset.sum_range_succ]
  have e1 : ∀ k, action (contactOp H.n m B) c 1 k = (∑ j ∈ Finset.range H.n, B.J10 k j * c j) + ∑ l ∈ Finset.range m, B.J11 k l * c (H.n + l) := by
    intro k
    simp [action, contactOp, act, Finset.sum_range_succ]
  constructor
  · intro h
    refine ⟨fun k hk => ?_, fun k hk => ?_⟩
    · have := h 0 (by simp [contactOp]) k (by simpa [contactOp] using hk)
      rw [e0] at this
      simpa [contactOp] using this
    · have := h 1 (by simp [contactOp]) k (by simpa [contactOp] using hk)
      rw [e1] at this
      simpa [contactOp] using this
  · rintro ⟨h1, h2⟩ i hi k hk
    have hi' : i < 2 := hi
    obtain rfl | rfl : i = 0 ∨ i = 1 := by omega
    · rw [e0]
      simpa [contactOp] using h1 k (by simpa [contactOp] using hk)
    · rw [e1]
      simpa [contactOp] using h2 k (by simpa [contactOp] using hk)

/-- **C99, contact.**  In a contact iteration with a tangent that resists and independent gaps the direct solver returns the Newton correction of displacements and pressures. -/
theorem C99_contact (junk : Table) (lu : Mat → (ℕ → ℝ) → ℕ → ℝ) (hlu : Factors lu) (ops : List Op) {H : Contact.Host} {x : ℕ → ℝ} {d : Contact.Data} (hi : C34.Inv d)
    {B : Contact.Blocks} (hB : Contact.gradient H x d = some B) (hl : ∀ y ∈ d.inters, y.lm = true) (hT : ∀ y ∈ d.inters, C35.TiedOk y)
    (hK : C98.Stiff H x d.inters) (hF : C98.Free H d.inters) (s s' : Solver) (hs : Solver.setOperators junk (ops ++ [.block (contactOp H.n d.numDofs B)]) s = .ok s') (r : ℕ → ℝ) :
    ∃ c, s'.mult lu r = .ok c ∧ C95.Correction H B d.numDofs r c := by
  have hr : Regular (contactOp H.n d.numDofs B) := by
    refine ⟨rfl, fun y hy c hc => ?_⟩
    obtain ⟨z, -, h2⟩ := C98.C98_solvable hi hB hl hT hK hF fun _ => 0
    have hc' : c < H.n + d.numDofs := by simpa [contactOp] using hc
    rw [h2 y ((contact_solution H d.numDofs B _ y).1 hy) c hc',
      ← h2 (fun _ => 0) ⟨fun k _ => by simp, fun k _ => by simp⟩ c hc']
  obtain ⟨c, h1, h2, -⟩ := C99_solves junk lu hlu ops _ (contact_legal _ _ B) hr s s' hs r
  exact ⟨c, h1, (contact_solution H d.numDofs B r c).1 h2⟩

/-! ## The equation solver -/

/-- What a user does with an equation solver. -/
inductive Use (Oper : Type) where
  | set (op : Oper)
  | solve (x : ℕ → ℝ)

def run {Oper Lin : Type} : List (Use Oper) → Equation Oper Lin → Equation Oper Lin
  | [], s => s
  | .set op :: us, s => run us (s.setOperator op)
  | .solve x :: us, s => run us (s.solve x)

/-- What the nonlinear solver knows when it is asked to solve: its operator, its linear solver, the right hand side and the guess. -/
def seen {Oper Lin : Type} : List (Call Oper Lin) → Option Oper → Option Lin → List (Option Oper × Option Lin × (ℕ → ℝ) × (ℕ → ℝ))
  | [], _, _ => []
  | .setOperator op :: cs, _, l => seen cs (some op) l
  | .setSolver l :: cs, o, _ => seen cs o (some l)
  | .mult b x :: cs, o, l => (o, l, b, x) :: seen cs o l

/-- What the user expects: the last operator, the linear solver as soon as there is an operator, and zero on the right. -/
def expected {Oper Lin : Type} (lin : Lin) : List (Use Oper) → Option Oper → List (Option Oper × Option Lin × (ℕ → ℝ) × (ℕ → ℝ))
  | [], _ => []
  | .set op :: us, _ => expected lin us (some op)
  | .solve x :: us, o => (o, o.map fun _ => lin, fun _ => 0, x) :: expected lin us o

/-- How often the linear solver is handed over. -/
def handed {Oper Lin : Type} : List (Call Oper Lin) → ℕ
  | [] => 0
  | .setSolver _ :: cs => handed cs + 1
  | _ :: cs => handed cs

theorem handed_append {Oper Lin : Type} (a c : List (Call Oper Lin)) : handed (a ++ c) = handed a + handed c := by
  induction a with
  | nil => simp [handed]
  | cons x xs ih => cases x <;> simp [handed, ih] <;> omega

theorem run_calls {Oper Lin : Type} (us : List (Use Oper)) (s : Equation Oper Lin) :
    ∃ cs, (run us s).calls = s.calls ++ cs ∧
      (∀ o : Option Oper, (s.called = o.isSome) → seen cs o (o.map fun _ => s.lin) = expected s.lin us o) ∧
      handed cs = if s.called then 0 else if ∃ op, Use.set op ∈ us then 1 else 0 := by
  induction us generalizing s with
  | nil => exact ⟨[], by simp [run], fun o _ => by simp [seen, expected], by simp [handed]⟩
  | cons u us ih =>
    cases u with
    | set op =>
      by_cases hc : s.called = true
      · obtain ⟨cs, h1, h2, h3⟩ := ih (s.setOperator op)
        have e : s.setOperator op = { s with calls := s.calls ++ [Call.setOperator op] } := by unfold Equation.setOperator; simp [hc]
        rw [e] at h1 h2 h3
        refine ⟨Call.setOperator op :: cs, by rw [run, e, h1]; simp, fun o ho => ?_, by simp [handed, h3, hc]⟩
        rw [hc] at ho
        obtain ⟨o', rfl⟩ := Option.isSome_iff_exists.1 ho.symm
        have := h2 (some op) (by simp [hc])
        simpa [seen, expected] using this
      · obtain ⟨cs, h1, h2, h3⟩ := ih (s.setOperator op)
        have e : s.setOperator op = { s with calls := s.calls ++ [Call.setOperator op] ++ [Call.setSolver s.lin], called := true } := by
          unfold Equation.setOperator; simp [hc]
        rw [e] at h1 h2 h3
        refine ⟨Call.setOperator op :: Call.setSolver s.lin :: cs, by rw [run, e, h1]; simp, fun o ho => ?_, ?_⟩
        · have := h2 (some op) rfl
          simpa [seen, expected] using this
        · simp only [handed, h3, if_true]
          rw [if_neg hc, if_pos ⟨op, by simp⟩]
    | solve x =>
      obtain ⟨cs, h1, h2, h3⟩ := ih (s.solve x)
      refine ⟨Call.mult (fun _ => 0) x :: cs, by rw [run, h1]; simp [Equation.solve], fun o ho => ?_, ?_⟩
      · have := h2 o ho
        simp only [seen, expected]
        congr 1
      · simp only [handed, h3, Equation.solve]
        simp
        congr

/-- **C99, equation solver.**  Every solve of an `EquationSolver` is one of the last operator with zero on the right hand side and its own linear solver, which is handed over once,
after the first operator. -/
theorem C99_equation {Oper Lin : Type} (lin : Lin) (us : List (Use Oper)) :
    seen (run us (⟨lin, false, []⟩ : Equation Oper Lin)).calls none none = expected lin us none ∧
    handed (run us (⟨lin, false, []⟩ : Equation Oper Lin)).calls = (if ∃ op, Use.set op ∈ us then 1 else 0) := by
  obtain ⟨cs, h1, h2, h3⟩ := run_calls us (⟨lin, false, []⟩ : Equation Oper Lin)
  rw [h1]
  exact ⟨by simpa using h2 none rfl, by simpa using h3⟩

/-! ## Examples -/

/-- There are such libraries. -/
example : ∃ lu, Factors lu := by
  have key : ∀ (A : Mat) (b : ℕ → ℝ), ∃ y : ℕ → ℝ, A.rows = A.cols →
      (∀ x : ℕ → ℝ, (∀ r, r < A.rows → ∑ c ∈ Finset.range A.cols, A.e r c * x c = 0) → ∀ c, c < A.cols → x c = 0) →
      ∀ r, r < A.rows → ∑ c ∈ Finset.range A.cols, A.e r c * y c = b r := by
    rintro ⟨rows, cols, e⟩ b
    by_cases hsq : rows = cols
    · subst hsq
      by_cases hreg : ∀ x : ℕ → ℝ, (∀ r, r < rows → ∑ c ∈ Finset.range rows, e r c * x c = 0) → ∀ c, c < rows → x c = 0
      · let L : (Fin rows → ℝ) →ₗ[ℝ] (Fin rows → ℝ) := Matrix.mulVecLin (Matrix.of fun r c => e r c)
        have hL : ∀ (y : Fin rows → ℝ) (r : ℕ) (hr : r < rows), ∑ c ∈ Finset.range rows, e r c * C98.ext y c = L y ⟨r, hr⟩ := by
          intro y r hr
          rw [Finset.sum_range]
          simp only [L, Matrix.mulVecLin_apply, Matrix.mulVec, dotProduct, Matrix.of_apply]
          exact Finset.sum_congr rfl fun c _ => by unfold C98.ext; rw [dif_pos c.2]
        have hinj : Function.Injective L := by
          rw [← LinearMap.ker_eq_bot, LinearMap.ker_eq_bot']
          intro y hy
          funext c
          have := hreg (C98.ext y) (fun r hr => by rw [hL y r hr, hy]; rfl) c c.2
          unfold C98.ext at this
          rwa [dif_pos c.2] at this
        obtain ⟨y, hy⟩ := LinearMap.injective_iff_surjective.1 hinj fun r => b r
        exact ⟨C98.ext y, fun _ _ r hr => by rw [hL y r hr, hy]⟩
      · exact ⟨fun _ => 0, fun _ h => absurd h hreg⟩
    · exact ⟨fun _ => 0, fun h => absurd h hsq⟩
  choose lu hlu using key
  exact ⟨lu, fun A h1 h2 b => hlu A b h1 h2⟩

/-- A saddle point with a null block: two displacements, one pressure. -/
def saddle : BlockOp :=
  { nr := 2, nc := 2
    ro := fun i => if i = 0 then 0 else if i = 1 then 2 else 3
    co := fun i => if i = 0 then 0 else if i = 1 then 2 else 3
    blk := fun i j => if i = 0 then (if j = 0 then .hypre ⟨2, 2, fun r c => if r = c then 2 else 0⟩ else .hypre ⟨2, 1, fun r _ => if r = 0 then 1 else 0⟩)
      else (if j = 0 then .hypre ⟨1, 2, fun _ c => if c = 0 then 1 else 0⟩ else .zero) }

example : Legal saddle ∧ Regular saddle ∧ Assembled saddle := by
  refine ⟨⟨rfl, rfl, fun i => ?_, fun i => ?_, fun i hi j hj => ?_⟩, ⟨rfl, fun x hx c hc => ?_⟩, fun i hi j hj m n f => ?_⟩
  · simp only [saddle]; split <;> split <;> simp_all
  · simp only [saddle]; split <;> split <;> simp_all
  · have hi' : i < 2 := hi
    have hj' : j < 2 := hj
    obtain rfl | rfl : i = 0 ∨ i = 1 := by omega
    all_goals obtain rfl | rfl : j = 0 ∨ j = 1 := by omega
    all_goals simp [saddle, Fits]
  · have h0 := hx 0 (by simp [saddle]) 0 (by simp [saddle])
    have h1 := hx 0 (by simp [saddle]) 1 (by simp [saddle])
    have h2 := hx 1 (by simp [saddle]) 0 (by simp [saddle])
    simp [action, saddle, act, Finset.sum_range_succ] at h0 h1 h2
    have hc' : c < 3 := by simpa [saddle] using hc
    obtain rfl | rfl | rfl : c = 0 ∨ c = 1 ∨ c = 2 := by omega
    · exact h2
    · exact h1
    · linarith
  · have hi' : i < 2 := hi
    have hj' : j < 2 := hj
    obtain rfl | rfl : i = 0 ∨ i = 1 := by omega
    all_goals obtain rfl | rfl : j = 0 ∨ j = 1 := by omega
    all_goals simp [saddle]

end Serac.C99
