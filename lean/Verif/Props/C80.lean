import Verif.Model.Parallel
import Mathlib.LinearAlgebra.Pi
import Mathlib.LinearAlgebra.Matrix.NonsingularInverse
import Mathlib.Tactic.FinCases
import Mathlib.Tactic.NormNum
/-!
# C80: the number of processors does not matter

However a mesh is distributed over processors, and however local and true dofs are numbered there, residuals (`C80_residual`), actions of gradients (`C80_action`),
assembled matrices (`C80_matrix`), quantities of interest (`C80_total`), inner products (`C80_dot`) and sequences of evaluations with material states (`C80_run`) are those
of the mesh.  Newton's method with exact linear solves makes the same iterations and gives the same report (`C80_newton`).  `C80_independent` and `C80_newton_independent` compare two
distributions, `C80_alone` is the one with a single processor.
-/

noncomputable section
namespace Serac.C80
open Serac.Parallel

/-! ## Specification -/

/-- A mesh with no processors in sight: its entities and their dofs in `m` spaces, whose dofs are the elements of `N i`. -/
structure Mesh {ι : Type} {m : ℕ} (G : Shape ι m) (N : Fin m → Type) where
  entities : List ι
  dof : (i : Fin m) → (e : ι) → Fin (G.dofs i e) → N i

section Spec
variable {ι : Type} {m : ℕ} {G : Shape ι m} {N : Fin m → Type} {τ : Fin m} {Q : Type}

/-- `W` is a distribution of `M`: every entity is on one processor, every dof of the mesh is one true dof of one processor (`φ`), and the local dofs of the entities have
the values of the right true dofs. -/
structure Distributes (W : World G) (M : Mesh G N) (φ : (i : Fin m) → (W.space i).True ≃ N i) : Prop where
  cover : ((List.finRange W.ranks).flatMap W.mine).Perm M.entities
  dofs : ∀ r, ∀ e ∈ W.mine r, ∀ i a, φ i ((W.space i).tdof r (W.ldof r i e a)) = M.dof i e a

namespace Mesh
variable (M : Mesh G N)

/-- The values of a field on an entity. -/
def values (U : (i : Fin m) → N i → ℝ) (e : ι) : Values G e := fun i a => U i (M.dof i e a)

/-- The entities an integral extends over. -/
def domain (I : Integral G τ Q) : List ι := M.entities.filter fun e => G.boundary e == I.boundary && I.on e

/-- Sum over all integrals and entities. -/
def sum {α : Type} (κ : α → Integral G τ Q) (zs : List α) (H : α × ℕ → ι → ℝ) : ℝ := (zs.zipIdx.map fun p => ((M.domain (κ p.1)).map (H p)).sum).sum

/-- The residual at a dof: the contributions of all entities that have it. -/
def residual [∀ i, DecidableEq (N i)] (Is : List (Integral G τ Q)) (t : ℝ) (q : States ι Q) (U : (i : Fin m) → N i → ℝ) (n : N τ) : ℝ :=
  M.sum id Is fun p e => ∑ a, if M.dof τ e a = n then p.1.value t e (q p.2 e) (M.values U e) a else 0

/-- The derivative by argument `i`, entry by entry. -/
def matrix [∀ i, DecidableEq (N i)] (Is : List (Integral G τ Q)) (t : ℝ) (q : States ι Q) (U : (i : Fin m) → N i → ℝ) (i : Fin m) : Matrix (N τ) (N i) ℝ := fun n n' =>
  M.sum id Is fun p e => ∑ a, ∑ b, if M.dof τ e a = n ∧ M.dof i e b = n' then p.1.derivative t e (q p.2 e) (M.values U e) i a b else 0

/-- A quantity of interest. -/
def total (Is : List (Integral G τ Q × (ℝ → (e : ι) → Q → Values G e → ℝ))) (t : ℝ) (q : States ι Q) (U : (i : Fin m) → N i → ℝ) : ℝ :=
  M.sum Prod.fst Is fun p e => p.1.2 t e (q p.2 e) (M.values U e)

/-- The material states after an evaluation that updates them. -/
def advance [DecidableEq ι] (Is : List (Integral G τ Q)) (t : ℝ) (U : (i : Fin m) → N i → ℝ) (q : States ι Q) : States ι Q := fun k e =>
  match Is[k]? with
  | some I => if e ∈ M.domain I then I.next t e (q k e) (M.values U e) else q k e
  | none => q k e

/-- One evaluation after the other. -/
def run [∀ i, DecidableEq (N i)] [DecidableEq ι] (Is : List (Integral G τ Q)) :
    List (ℝ × Bool × ((i : Fin m) → N i → ℝ)) → States ι Q → List (N τ → ℝ) × States ι Q
  | [], q => ([], q)
  | c :: cs, q =>
    let rest := run Is cs (if c.2.1 then M.advance Is c.1 c.2.2 q else q)
    (M.residual Is c.1 q c.2.2 :: rest.1, rest.2)

/-- The nonlinear problem with essential dofs `ess`. -/
def problem [∀ i, DecidableEq (N i)] [∀ i, Fintype (N i)] (Is : List (Integral G τ Q)) (t : ℝ) (q : States ι Q) (U : (i : Fin m) → N i → ℝ) (ess : N τ → Bool) :
    Newton.Problem (N τ → ℝ) (N τ → ℝ) where
  oper x _ := .ok fun n => if ess n then 0 else M.residual Is t q (Function.update U τ x) n
  norm r := .fin (Real.sqrt (∑ n, r n * r n))
  correction x r := (Matrix.of fun n n' =>
    if ess n || ess n' then (if n = n' then 1 else 0) else M.matrix Is t q (Function.update U τ x) τ n n')⁻¹.mulVec r

end Mesh

/-- The fields of a mesh in a distribution. -/
def spread {W : World G} (φ : (i : Fin m) → (W.space i).True ≃ N i) (U : (i : Fin m) → N i → ℝ) : W.Fields := fun i => U i ∘ φ i

/-- Every processor has the states of its entities. -/
def Same (W : World G) (q : Fin W.ranks → States ι Q) (q' : States ι Q) : Prop := ∀ r, ∀ e ∈ W.mine r, ∀ k, q r k e = q' k e

/-- A Newton iterate in a distribution. -/
def iterMap {X X' R R' : Type} (f : X → X') (g : R → R') (s : Newton.Iter X R) : Newton.Iter X' R' :=
  { x := f s.x, r := g s.r, norm := s.norm, trace := s.trace.map fun p => (f p.1, p.2) }

/-- All of a mesh on one processor, its true dofs numbered by `ν`. -/
def alone {n : Fin m → ℕ} (M : Mesh G fun i => Fin (n i)) : World G where
  ranks := 1
  mine _ := M.entities
  space i := { size := fun _ => n i, lsize := fun _ => n i, tdof := fun r l => ⟨r, l⟩ }
  ldof _ i e a := M.dof i e a

/-- The true dofs of the only processor. -/
def aloneDofs {n : Fin m → ℕ} (M : Mesh G fun i => Fin (n i)) (i : Fin m) : ((alone M).space i).True ≃ Fin (n i) where
  toFun s := s.2
  invFun k := ⟨(0 : Fin 1), k⟩
  left_inv s := by
    obtain ⟨r, k⟩ := s
    change Fin 1 at r
    obtain rfl : r = 0 := Subsingleton.elim _ _
    rfl
  right_inv _ := rfl

end Spec

/-! ## Loops -/

theorem foldl_sum {A β : Type} [AddCommMonoid A] (c : β → A) (xs : List β) (z : A) : xs.foldl (fun out e => out + c e) z = z + (xs.map c).sum := by
  induction xs generalizing z with
  | nil => simp
  | cons x xs ih => simp [ih, add_assoc]

theorem nested {A α β : Type} [AddCommMonoid A] (dom : α → List β) (c : α → β → A) (zs : List α) (z : A) :
    zs.foldl (fun out p => (dom p).foldl (fun out e => out + c p e) out) z = z + (zs.map fun p => ((dom p).map (c p)).sum).sum := by
  induction zs generalizing z with
  | nil => simp
  | cons x xs ih => rw [List.foldl_cons, foldl_sum, ih]; simp [add_assoc]

theorem hom_nested {A α β : Type} [AddCommMonoid A] (Λ : A →+ ℝ) (dom : α → List β) (c : α → β → A) (zs : List α) :
    Λ (zs.foldl (fun out p => (dom p).foldl (fun out e => out + c p e) out) 0) = (zs.map fun p => ((dom p).map fun e => Λ (c p e)).sum).sum := by
  rw [nested, zero_add, map_list_sum, List.map_map]
  congr 1
  refine List.map_congr_left fun p _ => ?_
  simp only [Function.comp, map_list_sum, List.map_map]
  rfl

section
variable {ι : Type} {m : ℕ} {G : Shape ι m} {N : Fin m → Type} {τ : Fin m} {Q : Type} {W : World G} {M : Mesh G N}
  {φ : (i : Fin m) → (W.space i).True ≃ N i}

theorem domain_eq (W : World G) (r : Fin W.ranks) (I : Integral G τ Q) : W.domain r I = (W.mine r).filter fun e => G.boundary e == I.boundary && I.on e := by
  unfold World.domain
  split
  · rfl
  · rename_i h
    symm
    rw [List.filter_eq_nil_iff]
    intro e he hb
    apply h
    unfold World.added
    rw [List.any_eq_true]
    exact ⟨e, he, by simp only [Bool.and_eq_true] at hb; exact hb.1⟩

theorem mem_mine {r : Fin W.ranks} {I : Integral G τ Q} {e : ι} (h : e ∈ W.domain r I) : e ∈ W.mine r := by
  rw [domain_eq] at h
  exact (List.mem_filter.1 h).1

theorem values_eq (hD : Distributes W M φ) (U : (i : Fin m) → N i → ℝ) {r : Fin W.ranks} {e : ι} (he : e ∈ W.mine r) :
    W.values r (spread φ U) e = M.values U e := by
  funext i a
  change U i (φ i ((W.space i).tdof r (W.ldof r i e a))) = U i (M.dof i e a)
  rw [hD.dofs r e he]

theorem sum_ranks {R : ℕ} (f : Fin R → ℝ) : ∑ r, f r = ((List.finRange R).map f).sum := by
  rw [← List.sum_ofFn, List.ofFn_eq_map]

theorem sum_flatMap {α β : Type} (g : α → List β) (H : β → ℝ) (xs : List α) : ((xs.flatMap g).map H).sum = (xs.map fun x => ((g x).map H).sum).sum := by
  induction xs with
  | nil => simp
  | cons x xs ih => simp [ih]

theorem filter_flatMap {α β : Type} (g : α → List β) (c : β → Bool) (xs : List α) : (xs.flatMap g).filter c = xs.flatMap fun x => (g x).filter c := by
  induction xs with
  | nil => simp
  | cons x xs ih => simp [ih]

/-- The entities of all processors are those of the mesh. -/
theorem over_ranks (hD : Distributes W M φ) (I : Integral G τ Q) (H : ι → ℝ) : ∑ r, ((W.domain r I).map H).sum = ((M.domain I).map H).sum := by
  simp only [domain_eq]
  rw [sum_ranks, ← sum_flatMap, ← filter_flatMap]
  exact ((hD.cover.filter _).map _).sum_eq

theorem all_sums (hD : Distributes W M φ) {α : Type} (κ : α → Integral G τ Q) (zs : List α) (F : Fin W.ranks → α × ℕ → ι → ℝ) (H : α × ℕ → ι → ℝ)
    (h : ∀ r, ∀ e ∈ W.mine r, ∀ p, F r p e = H p e) :
    ∑ r, (zs.zipIdx.map fun p => ((W.domain r (κ p.1)).map (F r p)).sum).sum = M.sum κ zs H := by
  unfold Mesh.sum
  have e : ∀ r, (zs.zipIdx.map fun p => ((W.domain r (κ p.1)).map (F r p)).sum).sum = (zs.zipIdx.map fun p => ((W.domain r (κ p.1)).map (H p)).sum).sum := by
    intro r
    congr 1
    refine List.map_congr_left fun p _ => ?_
    congr 1
    exact List.map_congr_left fun e he => h r e (mem_mine he) p
  simp only [e]
  generalize zs.zipIdx = ws
  induction ws with
  | nil => simp
  | cons p ws ih => simp only [List.map_cons, List.sum_cons, Finset.sum_add_distrib, ih, over_ranks hD]

/-- One value of `P->MultTranspose`, as a map of the local vector. -/
def pick {n : ℕ} (P : Fin n → Prop) [DecidablePred P] : (Fin n → ℝ) →+ ℝ where
  toFun w := ∑ l, if P l then w l else 0
  map_zero' := by simp
  map_add' a b := by
    rw [← Finset.sum_add_distrib]
    refine Finset.sum_congr rfl fun l _ => ?_
    split <;> simp

theorem pick_scatter {n k : ℕ} (P : Fin n → Prop) [DecidablePred P] (g : Fin k → Fin n) (y : Fin k → ℝ) :
    pick P (fun l => ∑ a, if g a = l then y a else 0) = ∑ a, if P (g a) then y a else 0 := by
  change (∑ l, if P l then (∑ a, if g a = l then y a else 0) else 0) = _
  have e : ∀ l, (if P l then (∑ a, if g a = l then y a else 0) else 0) = ∑ a, if g a = l then (if P l then y a else 0) else 0 := by
    intro l
    split <;> simp
  simp only [e]
  rw [Finset.sum_comm]
  refine Finset.sum_congr rfl fun a _ => ?_
  simp

/-- One entry of `RAP`, as a map of the local matrix. -/
def pick2 {n n' : ℕ} (P : Fin n → Prop) (P' : Fin n' → Prop) [DecidablePred P] [DecidablePred P'] : (Fin n → Fin n' → ℝ) →+ ℝ where
  toFun w := ∑ l, ∑ l', if P l ∧ P' l' then w l l' else 0
  map_zero' := by simp
  map_add' a b := by
    rw [← Finset.sum_add_distrib]
    refine Finset.sum_congr rfl fun l _ => ?_
    rw [← Finset.sum_add_distrib]
    refine Finset.sum_congr rfl fun l' _ => ?_
    split <;> simp

theorem pick2_scatter {n n' k k' : ℕ} (P : Fin n → Prop) (P' : Fin n' → Prop) [DecidablePred P] [DecidablePred P'] (g : Fin k → Fin n) (g' : Fin k' → Fin n')
    (y : Fin k → Fin k' → ℝ) :
    pick2 P P' (fun l l' => ∑ a, ∑ b, if g a = l ∧ g' b = l' then y a b else 0) = ∑ a, ∑ b, if P (g a) ∧ P' (g' b) then y a b else 0 := by
  change (∑ l, ∑ l', if P l ∧ P' l' then (∑ a, ∑ b, if g a = l ∧ g' b = l' then y a b else 0) else 0) = _
  have e : ∀ l l', (if P l ∧ P' l' then (∑ a, ∑ b, if g a = l ∧ g' b = l' then y a b else 0) else 0) =
      ∑ a, ∑ b, if g a = l then (if g' b = l' then (if P l ∧ P' l' then y a b else 0) else 0) else 0 := by
    intro l l'
    by_cases h : P l ∧ P' l'
    · simp only [h, and_self, if_true]
      refine Finset.sum_congr rfl fun a _ => Finset.sum_congr rfl fun b _ => ?_
      by_cases h1 : g a = l <;> simp [h1]
    · simp [h]
  simp only [e]
  have s1 : ∀ l, (∑ l', ∑ a, ∑ b, if g a = l then (if g' b = l' then (if P l ∧ P' l' then y a b else 0) else 0) else 0) =
      ∑ a, ∑ b, if g a = l then (if P l ∧ P' (g' b) then y a b else 0) else 0 := by
    intro l
    rw [Finset.sum_comm]
    refine Finset.sum_congr rfl fun a _ => ?_
    rw [Finset.sum_comm]
    refine Finset.sum_congr rfl fun b _ => ?_
    by_cases h1 : g a = l <;> simp [h1]
  simp only [s1]
  rw [Finset.sum_comm]
  refine Finset.sum_congr rfl fun a _ => ?_
  rw [Finset.sum_comm]
  refine Finset.sum_congr rfl fun b _ => ?_
  simp

/-! ## Residuals, gradients, quantities of interest -/

section
variable [∀ i, DecidableEq (N i)]

omit [∀ i, DecidableEq (N i)] in
theorem at_dof (hD : Distributes W M φ) {r : Fin W.ranks} {e : ι} (he : e ∈ W.mine r) (i : Fin m) (a : Fin (G.dofs i e)) (s : (W.space i).True) :
    ((W.space i).tdof r (W.ldof r i e a) = s) = (M.dof i e a = φ i s) := by
  rw [← hD.dofs r e he i a, (φ i).apply_eq_iff_eq]

theorem assembled (hD : Distributes W M φ) (Is : List (Integral G τ Q)) (y : Fin W.ranks → Integral G τ Q × ℕ → (e : ι) → Fin (G.dofs τ e) → ℝ)
    (Y : Integral G τ Q × ℕ → (e : ι) → Fin (G.dofs τ e) → ℝ) (h : ∀ r, ∀ e ∈ W.mine r, ∀ p, y r p e = Y p e) (s : (W.space τ).True) :
    (W.space τ).assemble (fun r => Is.zipIdx.foldl (fun out p => (W.domain r p.1).foldl (fun out e => W.scatterAdd r e (y r p e) out) out) fun _ => 0) s =
      M.sum id Is fun p e => ∑ a, if M.dof τ e a = φ τ s then Y p e a else 0 := by
  rw [← all_sums hD id Is (fun r p e => ∑ a, if (W.space τ).tdof r (W.ldof r τ e a) = s then y r p e a else 0)]
  · refine Finset.sum_congr rfl fun r _ => ?_
    refine (hom_nested (pick fun l => (W.space τ).tdof r l = s) (fun p => W.domain r p.1)
      (fun (p : Integral G τ Q × ℕ) e => fun l => ∑ a, if W.ldof r τ e a = l then y r p e a else 0) Is.zipIdx).trans ?_
    simp only [pick_scatter]
    rfl
  · intro r e he p
    simp only [h r e he p, at_dof hD he]

/-- The residual on any number of processors is the residual of the mesh. -/
theorem C80_residual (hD : Distributes W M φ) (Is : List (Integral G τ Q)) (t : ℝ) (q : Fin W.ranks → States ι Q) (q' : States ι Q) (hq : Same W q q')
    (U : (i : Fin m) → N i → ℝ) (s : (W.space τ).True) :
    W.residual Is t q (spread φ U) s = M.residual Is t q' U (φ τ s) := by
  refine assembled hD Is (fun r p e => p.1.value t e (q r p.2 e) (W.values r (spread φ U) e)) (fun p e => p.1.value t e (q' p.2 e) (M.values U e)) ?_ s
  intro r e he p
  beta_reduce
  rw [values_eq hD U he, hq r e he]

theorem mesh_action [∀ i, Fintype (N i)] (Is : List (Integral G τ Q)) (t : ℝ) (q : States ι Q) (U : (i : Fin m) → N i → ℝ) (i : Fin m) (dX : N i → ℝ) (n : N τ) :
    (M.matrix Is t q U i).mulVec dX n =
      M.sum id Is fun p e => ∑ a, if M.dof τ e a = n then ∑ b, p.1.derivative t e (q p.2 e) (M.values U e) i a b * dX (M.dof i e b) else 0 := by
  change ∑ n', M.sum id Is _ * dX n' = _
  unfold Mesh.sum
  generalize Is.zipIdx = zs
  have key : ∀ (p : Integral G τ Q × ℕ) (e : ι), (∑ n', (∑ a, ∑ b, if M.dof τ e a = n ∧ M.dof i e b = n' then p.1.derivative t e (q p.2 e) (M.values U e) i a b else 0) * dX n') =
      ∑ a, if M.dof τ e a = n then ∑ b, p.1.derivative t e (q p.2 e) (M.values U e) i a b * dX (M.dof i e b) else 0 := by
    intro p e
    simp only [Finset.sum_mul]
    rw [Finset.sum_comm]
    refine Finset.sum_congr rfl fun a _ => ?_
    rw [Finset.sum_comm]
    by_cases h : M.dof τ e a = n
    · simp [h, ite_mul]
    · simp [h]
  induction zs with
  | nil => simp
  | cons p zs ih =>
    simp only [List.map_cons, List.sum_cons, add_mul, Finset.sum_add_distrib, ih]
    congr 1
    generalize M.domain (id p.1) = es
    induction es with
    | nil => simp
    | cons e es ihe => simp only [List.map_cons, List.sum_cons, add_mul, Finset.sum_add_distrib, ihe, key]

/-- The action of the gradient on any number of processors is the product with the matrix of the mesh. -/
theorem C80_action [∀ i, Fintype (N i)] (hD : Distributes W M φ) (Is : List (Integral G τ Q)) (t : ℝ) (q : Fin W.ranks → States ι Q) (q' : States ι Q) (hq : Same W q q')
    (U : (i : Fin m) → N i → ℝ) (i : Fin m) (dX : N i → ℝ) (s : (W.space τ).True) :
    W.action Is t q (spread φ U) i (dX ∘ φ i) s = (M.matrix Is t q' U i).mulVec dX (φ τ s) := by
  rw [mesh_action]
  refine assembled hD Is (fun r p e a => ∑ b, p.1.derivative t e (q r p.2 e) (W.values r (spread φ U) e) i a b * (W.space i).prolong r (dX ∘ φ i) (W.ldof r i e b))
    (fun p e a => ∑ b, p.1.derivative t e (q' p.2 e) (M.values U e) i a b * dX (M.dof i e b)) ?_ s
  intro r e he p
  funext a
  refine Finset.sum_congr rfl fun b _ => ?_
  rw [values_eq hD U he, hq r e he, ← hD.dofs r e he]
  rfl

/-- The assembled matrix on any number of processors is that of the mesh. -/
theorem C80_matrix (hD : Distributes W M φ) (Is : List (Integral G τ Q)) (t : ℝ) (q : Fin W.ranks → States ι Q) (q' : States ι Q) (hq : Same W q q')
    (U : (i : Fin m) → N i → ℝ) (i : Fin m) (s : (W.space τ).True) (s' : (W.space i).True) :
    W.matrix Is t q (spread φ U) i s s' = M.matrix Is t q' U i (φ τ s) (φ i s') := by
  unfold Mesh.matrix
  rw [← all_sums hD id Is (fun r p e => ∑ a, ∑ b, if (W.space τ).tdof r (W.ldof r τ e a) = s ∧ (W.space i).tdof r (W.ldof r i e b) = s' then
    p.1.derivative t e (q r p.2 e) (W.values r (spread φ U) e) i a b else 0)]
  · refine Finset.sum_congr rfl fun r _ => ?_
    refine (hom_nested (pick2 (fun l => (W.space τ).tdof r l = s) fun l' => (W.space i).tdof r l' = s') (fun p => W.domain r p.1)
      (fun (p : Integral G τ Q × ℕ) e => fun l l' => ∑ a, ∑ b, if W.ldof r τ e a = l ∧ W.ldof r i e b = l' then
        p.1.derivative t e (q r p.2 e) (W.values r (spread φ U) e) i a b else 0) Is.zipIdx).trans ?_
    simp only [pick2_scatter]
    rfl
  · intro r e he p
    simp only [at_dof hD he, values_eq hD U he, hq r e he]

end

/-- A quantity of interest on any number of processors is that of the mesh. -/
theorem C80_total (hD : Distributes W M φ) (Is : List (Integral G τ Q × (ℝ → (e : ι) → Q → Values G e → ℝ))) (t : ℝ) (q : Fin W.ranks → States ι Q)
    (q' : States ι Q) (hq : Same W q q') (U : (i : Fin m) → N i → ℝ) :
    W.total Is t q (spread φ U) = M.total Is t q' U := by
  unfold Mesh.total
  rw [← all_sums hD Prod.fst Is (fun r p e => p.1.2 t e (q r p.2 e) (W.values r (spread φ U) e))]
  · refine Finset.sum_congr rfl fun r _ => ?_
    exact hom_nested (AddMonoidHom.id ℝ) (fun p => W.domain r p.1.1)
      (fun (p : (Integral G τ Q × (ℝ → (e : ι) → Q → Values G e → ℝ)) × ℕ) e => p.1.2 t e (q r p.2 e) (W.values r (spread φ U) e)) Is.zipIdx
  · intro r e he p
    rw [values_eq hD U he, hq r e he]

/-- Inner products, and with them norms, are those of the mesh. -/
theorem C80_dot {R : ℕ} (K : Numbering R) {D : Type} [Fintype D] (f : K.True ≃ D) (u v : D → ℝ) : K.dot (u ∘ f) (v ∘ f) = ∑ n, u n * v n := by
  unfold Numbering.dot
  rw [← f.sum_comp, Fintype.sum_sigma]
  rfl

/-! ## Material states -/

section
variable [DecidableEq ι]

theorem states_inner (k : ℕ) (nx : (e : ι) → Q → Q) (xs : List ι) (hx : xs.Nodup) (q : States ι Q) (k' : ℕ) (e' : ι) :
    xs.foldl (fun q e => fun j e'' => if j = k ∧ e'' = e then nx e (q k e) else q j e'') q k' e' = if k' = k ∧ e' ∈ xs then nx e' (q k e') else q k' e' := by
  induction xs generalizing q with
  | nil => simp
  | cons x xs ih =>
    obtain ⟨hn, hd⟩ := List.nodup_cons.1 hx
    rw [List.foldl_cons, ih hd]
    by_cases hk : k' = k
    · subst hk
      by_cases he : e' = x
      · subst he
        simp [hn]
      · simp [he]
    · simp [hk]

theorem states_outer (nx : Integral G τ Q → (e : ι) → Q → Q) (dom : Integral G τ Q → List ι) (hx : ∀ I, (dom I).Nodup) (Is : List (Integral G τ Q)) (n : ℕ)
    (q : States ι Q) (k : ℕ) (e : ι) :
    (Is.zipIdx n).foldl (fun q p => (dom p.1).foldl (fun q e => fun j e'' => if j = p.2 ∧ e'' = e then nx p.1 e (q p.2 e) else q j e'') q) q k e =
      if k < n then q k e else match Is[k - n]? with
        | some I => if e ∈ dom I then nx I e (q k e) else q k e
        | none => q k e := by
  induction Is generalizing n q with
  | nil => simp
  | cons I Is ih =>
    rw [List.zipIdx_cons, List.foldl_cons, ih]
    dsimp only
    rw [states_inner _ _ _ (hx I)]
    rcases Nat.lt_trichotomy k n with h | h | h
    · have e1 : k < n + 1 := by omega
      have e2 : k ≠ n := by omega
      simp only [h, e1, e2, if_true, false_and, if_false]
    · subst h
      simp
    · have e1 : k - n = (k - (n + 1)) + 1 := by omega
      have e2 : k ≠ n := by omega
      have e3 : ¬ k < n + 1 := by omega
      have e4 : ¬ k < n := by omega
      rw [e1, List.getElem?_cons_succ]
      simp only [e2, e3, e4, false_and, if_false]

omit [DecidableEq ι] in
theorem mine_nodup (hD : Distributes W M φ) (hn : M.entities.Nodup) (r : Fin W.ranks) : (W.mine r).Nodup := by
  have h := hD.cover.nodup_iff.2 hn
  rw [List.nodup_flatMap] at h
  exact h.1 r (List.mem_finRange r)

omit [DecidableEq ι] in
theorem mine_sub (hD : Distributes W M φ) {r : Fin W.ranks} {e : ι} (he : e ∈ W.mine r) : e ∈ M.entities :=
  hD.cover.mem_iff.1 (List.mem_flatMap.2 ⟨r, List.mem_finRange r, he⟩)

theorem advance_same (hD : Distributes W M φ) (hn : M.entities.Nodup) (Is : List (Integral G τ Q)) (t : ℝ) (U : (i : Fin m) → N i → ℝ) (q : Fin W.ranks → States ι Q)
    (q' : States ι Q) (hq : Same W q q') : Same W (W.advance Is t (spread φ U) q) (M.advance Is t U q') := by
  intro r e he k
  unfold World.advance
  rw [states_outer (fun I e q => I.next t e q (W.values r (spread φ U) e)) (fun I => W.domain r I)
    (fun I => by rw [domain_eq]; exact (mine_nodup hD hn r).filter _) Is 0 (q r) k e]
  unfold Mesh.advance
  rw [if_neg (by omega), Nat.sub_zero]
  cases Is[k]? with
  | none => exact hq r e he k
  | some I =>
    have hm : (e ∈ W.domain r I) = (e ∈ M.domain I) := by
      rw [domain_eq, Mesh.domain, List.mem_filter, List.mem_filter]
      simp [he, mine_sub hD he]
    simp only [hm, hq r e he k, values_eq hD U he]

variable [∀ i, DecidableEq (N i)]

/-- A sequence of evaluations, some of which update material states, returns the residuals of the mesh and leaves its states. -/
theorem C80_run (hD : Distributes W M φ) (hn : M.entities.Nodup) (Is : List (Integral G τ Q)) (cs : List (ℝ × Bool × ((i : Fin m) → N i → ℝ)))
    (q : Fin W.ranks → States ι Q) (q' : States ι Q) (hq : Same W q q') :
    (W.run Is (cs.map fun c => ⟨c.1, c.2.1, spread φ c.2.2⟩) q).1 = (M.run Is cs q').1.map (fun x => x ∘ φ τ) ∧
    Same W (W.run Is (cs.map fun c => ⟨c.1, c.2.1, spread φ c.2.2⟩) q).2 (M.run Is cs q').2 := by
  induction cs generalizing q q' with
  | nil => exact ⟨rfl, hq⟩
  | cons c cs ih =>
    have hs : Same W (if c.2.1 then W.advance Is c.1 (spread φ c.2.2) q else q) (if c.2.1 then M.advance Is c.1 c.2.2 q' else q') := by
      cases c.2.1
      · exact hq
      · exact advance_same hD hn Is c.1 c.2.2 q q' hq
    obtain ⟨h1, h2⟩ := ih _ _ hs
    refine ⟨?_, h2⟩
    change W.residual Is c.1 q (spread φ c.2.2) :: _ = (M.residual Is c.1 q' c.2.2 ∘ φ τ) :: _
    congr 1
    funext s
    exact C80_residual hD Is c.1 q q' hq c.2.2 s

end
end

/-! ## Newton's method -/

section
open Newton
variable {X X' R R' : Type} [AddCommGroup X] [Module ℝ X] [AddCommGroup X'] [Module ℝ X']

/-- An outcome of the operator under a map. -/
def resMap (g : R → R') : Res R → Res R'
  | .ok r => .ok (g r)
  | .threw r => .threw (g r)

/-- The second problem is the first one in other coordinates. -/
structure Mapped (p : Problem X R) (p' : Problem X' R') (f : X →ₗ[ℝ] X') (g : R → R') : Prop where
  oper : ∀ x r, p'.oper (f x) (g r) = resMap g (p.oper x r)
  norm : ∀ r, p'.norm (g r) = p.norm r
  correction : ∀ x r, p'.correction (f x) (g r) = f (p.correction x r)

variable {p : Problem X R} {p' : Problem X' R'} {f : X →ₗ[ℝ] X'} {g : R → R'}

theorem evaluateNorm_map (h : Mapped p p' f g) (x : X) (r : R) : evaluateNorm p' (f x) (g r) = ((evaluateNorm p x r).1, g (evaluateNorm p x r).2) := by
  unfold evaluateNorm
  rw [h.oper]
  cases p.oper x r with
  | ok r => simp [resMap, h.norm]
  | threw r => simp [resMap]

theorem evalAt_map (h : Mapped p p' f g) (x : X) (s : Iter X R) : evalAt p' (f x) (iterMap f g s) = iterMap f g (evalAt p x s) := by
  unfold evalAt
  have e : evaluateNorm p' (f x) (iterMap f g s).r = ((evaluateNorm p x s.r).1, g (evaluateNorm p x s.r).2) := evaluateNorm_map h x s.r
  rw [e]
  rfl

theorem backtrack_map (h : Mapped p p' f g) (x0 c : X) (sgn : ℝ) (prev : Num) (rem : ℕ) (a : ℝ) (s : Iter X R) :
    backtrack p' (f x0) (f c) sgn prev rem a (iterMap f g s) =
      (iterMap f g (backtrack p x0 c sgn prev rem a s).1, (backtrack p x0 c sgn prev rem a s).2) := by
  induction rem generalizing a s with
  | zero => rfl
  | succ rem ih =>
    unfold backtrack
    by_cases hl : s.norm.lt prev
    · rw [if_pos hl, if_pos (show (iterMap f g s).norm.lt prev from hl)]
    · rw [if_neg hl, if_neg (show ¬ (iterMap f g s).norm.lt prev from hl), ← map_smul, ← map_add, evalAt_map h, ih]

theorem iterate_map (h : Mapped p p' f g) (o : Options) (s : Iter X R) : iterate p' o (iterMap f g s) = iterMap f g (iterate p o s) := by
  unfold iterate
  dsimp only
  have hc : p'.correction (iterMap f g s).x (iterMap f g s).r = f (p.correction s.x s.r) := h.correction _ _
  have hx : (iterMap f g s).x = f s.x := rfl
  have hn : (iterMap f g s).norm = s.norm := rfl
  rw [hc, hx, hn, ← map_smul, ← map_add, evalAt_map h, backtrack_map h]
  dsimp only
  generalize backtrack p s.x (p.correction s.x s.r) (-1) s.norm o.maxLs 1 _ = b1
  rw [← map_smul, ← map_add, evalAt_map h, backtrack_map h]
  dsimp only
  generalize backtrack p s.x (p.correction s.x s.r) 1 s.norm o.maxLs 1 _ = b2
  have n1 : (iterMap f g b1.1).norm = b1.1.norm := rfl
  have n2 : (iterMap f g b2.1).norm = b2.1.norm := rfl
  rw [n1, n2, ← map_smul, ← map_add, evalAt_map h]
  split
  · split <;> rfl
  · rfl

theorem loop_map (h : Mapped p p' f g) (o : Options) (goal : Num) (rep : Report) (n : ℕ) : ∀ (it : ℕ) (s : Iter X R), o.maxIter - it ≤ n →
    loop p' o goal rep it (iterMap f g s) = (iterMap f g (loop p o goal rep it s).1, (loop p o goal rep it s).2) := by
  induction n with
  | zero =>
    intro it s hn
    have hm : o.maxIter ≤ it := by omega
    rw [loop.eq_def p' o goal rep it (iterMap f g s), loop.eq_def p o goal rep it s]
    have e : (iterMap f g s).norm = s.norm := rfl
    rw [e]
    cases s.norm with
    | nan => rfl
    | inf => simp only [hm, if_true]; split <;> rfl
    | fin a => simp only [hm, if_true]; split <;> rfl
  | succ n ih =>
    intro it s hn
    rw [loop.eq_def p' o goal rep it (iterMap f g s), loop.eq_def p o goal rep it s]
    have e : (iterMap f g s).norm = s.norm := rfl
    rw [e, iterate_map h]
    by_cases hm : o.maxIter ≤ it
    · cases s.norm with
      | nan => rfl
      | inf => simp only [hm, if_true]; split <;> rfl
      | fin a => simp only [hm, if_true]; split <;> rfl
    · rw [ih (it + 1) (iterate p o s) (by omega)]
      cases s.norm with
      | nan => rfl
      | inf => simp only [hm, if_false]; split <;> rfl
      | fin a => simp only [hm, if_false]; split <;> rfl

theorem mult_map (h : Mapped p p' f g) (o : Options) (x : X) (r : R) (rep : Report) :
    mult p' o (f x) (g r) rep = (iterMap f g (mult p o x r rep).1, (mult p o x r rep).2) := by
  unfold mult
  dsimp only
  have e : ({ x := f x, r := g r, norm := Num.nan, trace := [] } : Iter X' R') = iterMap f g { x := x, r := r, norm := Num.nan, trace := [] } := rfl
  rw [e, evalAt_map h, loop_map h o _ _ _ _ _ le_rfl]
  rfl

end

section
variable {ι : Type} {m : ℕ} {G : Shape ι m} {N : Fin m → Type} {τ : Fin m} {Q : Type} {W : World G} {M : Mesh G N}
  {φ : (i : Fin m) → (W.space i).True ≃ N i} [∀ i, DecidableEq (N i)] [∀ i, Fintype (N i)]

omit [∀ i, DecidableEq (N i)] [∀ i, Fintype (N i)] in
theorem update_spread (U : (i : Fin m) → N i → ℝ) (x : N τ → ℝ) : Function.update (spread φ U) τ (x ∘ φ τ) = spread φ (Function.update U τ x) := by
  funext i
  by_cases h : i = τ
  · subst h
    simp [spread]
  · simp [spread, h]

theorem problem_mapped (hD : Distributes W M φ) (Is : List (Integral G τ Q)) (t : ℝ) (q : Fin W.ranks → States ι Q) (q' : States ι Q) (hq : Same W q q')
    (U : (i : Fin m) → N i → ℝ) (ess : N τ → Bool) :
    Mapped (M.problem Is t q' U ess) (W.problem Is t q (spread φ U) (ess ∘ φ τ)) (LinearMap.funLeft ℝ ℝ (φ τ)) (fun r => r ∘ φ τ) where
  oper x r := by
    change Newton.Res.ok _ = Newton.Res.ok _
    congr 1
    funext s
    change (if ess (φ τ s) then (0 : ℝ) else W.residual Is t q (Function.update (spread φ U) τ (x ∘ φ τ)) s) =
      if ess (φ τ s) then 0 else M.residual Is t q' (Function.update U τ x) (φ τ s)
    rw [update_spread, C80_residual hD Is t q q' hq]
  norm r := by
    change Newton.Num.fin (Real.sqrt ((W.space τ).dot (r ∘ φ τ) (r ∘ φ τ))) = Newton.Num.fin (Real.sqrt (∑ n, r n * r n))
    rw [C80_dot]
  correction x r := by
    change (Matrix.of fun s s' => if ess (φ τ s) || ess (φ τ s') then (if s = s' then (1 : ℝ) else 0) else
      W.matrix Is t q (Function.update (spread φ U) τ (x ∘ φ τ)) τ s s')⁻¹.mulVec (r ∘ φ τ) = _
    have e : (Matrix.of fun s s' => if ess (φ τ s) || ess (φ τ s') then (if s = s' then (1 : ℝ) else 0) else
        W.matrix Is t q (Function.update (spread φ U) τ (x ∘ φ τ)) τ s s') =
        (Matrix.of fun n n' => if ess n || ess n' then (if n = n' then (1 : ℝ) else 0) else
          M.matrix Is t q' (Function.update U τ x) τ n n').submatrix (φ τ) (φ τ) := by
      ext s s'
      simp only [Matrix.of_apply, Matrix.submatrix_apply, update_spread, C80_matrix hD Is t q q' hq, (φ τ).apply_eq_iff_eq]
    rw [e, Matrix.inv_submatrix_equiv, Matrix.submatrix_mulVec_equiv, Function.comp_assoc, Equiv.self_comp_symm, Function.comp_id]
    rfl

/-- Newton's method on any number of processors makes the iterations of the mesh, in whatever numbering, and reports the same. -/
theorem C80_newton (hD : Distributes W M φ) (Is : List (Integral G τ Q)) (t : ℝ) (q : Fin W.ranks → States ι Q) (q' : States ι Q) (hq : Same W q q')
    (U : (i : Fin m) → N i → ℝ) (ess : N τ → Bool) (o : Newton.Options) (x r : N τ → ℝ) (rep : Newton.Report) :
    Newton.mult (W.problem Is t q (spread φ U) (ess ∘ φ τ)) o (x ∘ φ τ) (r ∘ φ τ) rep =
      (iterMap (· ∘ φ τ) (· ∘ φ τ) (Newton.mult (M.problem Is t q' U ess) o x r rep).1, (Newton.mult (M.problem Is t q' U ess) o x r rep).2) :=
  mult_map (problem_mapped hD Is t q q' hq U ess) o x r rep

end

/-! ## Two distributions -/

section
variable {ι : Type} {m : ℕ} {G : Shape ι m} {N : Fin m → Type} {τ : Fin m} {Q : Type} {W W' : World G} {M : Mesh G N}
  {φ : (i : Fin m) → (W.space i).True ≃ N i} {φ' : (i : Fin m) → (W'.space i).True ≃ N i} [∀ i, DecidableEq (N i)] [∀ i, Fintype (N i)]

/-- Two distributions of a mesh: where the fields agree, so do residuals, gradients and quantities of interest. -/
theorem C80_independent (hD : Distributes W M φ) (hD' : Distributes W' M φ') (Is : List (Integral G τ Q)) (t : ℝ) (q : Fin W.ranks → States ι Q)
    (q' : Fin W'.ranks → States ι Q) (q0 : States ι Q) (hq : Same W q q0) (hq' : Same W' q' q0) (u : W.Fields) (u' : W'.Fields)
    (hu : ∀ i s s', φ i s = φ' i s' → u i s = u' i s') :
    (∀ s s', φ τ s = φ' τ s' → W.residual Is t q u s = W'.residual Is t q' u' s') ∧
    (∀ i dx dx', (∀ s s', φ i s = φ' i s' → dx s = dx' s') → ∀ s s', φ τ s = φ' τ s' → W.action Is t q u i dx s = W'.action Is t q' u' i dx' s') ∧
    (∀ i s s' z z', φ τ s = φ' τ s' → φ i z = φ' i z' → W.matrix Is t q u i s z = W'.matrix Is t q' u' i s' z') ∧
    (∀ Js : List (Integral G τ Q × (ℝ → (e : ι) → Q → Values G e → ℝ)), W.total Js t q u = W'.total Js t q' u') := by
  have e : u = spread φ (fun i n => u i ((φ i).symm n)) := by funext i s; simp [spread]
  have e' : u' = spread φ' (fun i n => u i ((φ i).symm n)) := by
    funext i s
    exact (hu i _ s (by simp)).symm
  rw [e, e']
  refine ⟨fun s s' h => ?_, fun i dx dx' hd s s' h => ?_, fun i s s' z z' h hz => ?_, fun Js => ?_⟩
  · rw [C80_residual hD Is t q q0 hq, C80_residual hD' Is t q' q0 hq', h]
  · have d : dx = (fun n => dx ((φ i).symm n)) ∘ φ i := by funext s; simp
    have d' : dx' = (fun n => dx ((φ i).symm n)) ∘ φ' i := by
      funext s
      exact (hd _ s (by simp)).symm
    rw [d, d', C80_action hD Is t q q0 hq, C80_action hD' Is t q' q0 hq', h]
  · rw [C80_matrix hD Is t q q0 hq, C80_matrix hD' Is t q' q0 hq', h, hz]
  · rw [C80_total hD Js t q q0 hq, C80_total hD' Js t q' q0 hq']

/-- Two distributions of a mesh: Newton's method converges on both or on neither, after as many iterations, to the same solution. -/
theorem C80_newton_independent (hD : Distributes W M φ) (hD' : Distributes W' M φ') (Is : List (Integral G τ Q)) (t : ℝ) (q : Fin W.ranks → States ι Q)
    (q' : Fin W'.ranks → States ι Q) (q0 : States ι Q) (hq : Same W q q0) (hq' : Same W' q' q0) (U : (i : Fin m) → N i → ℝ) (ess : N τ → Bool)
    (o : Newton.Options) (x r : N τ → ℝ) (rep : Newton.Report) :
    let a := Newton.mult (W.problem Is t q (spread φ U) (ess ∘ φ τ)) o (x ∘ φ τ) (r ∘ φ τ) rep
    let b := Newton.mult (W'.problem Is t q' (spread φ' U) (ess ∘ φ' τ)) o (x ∘ φ' τ) (r ∘ φ' τ) rep
    a.2 = b.2 ∧ a.1.norm = b.1.norm ∧ ∀ s s', φ τ s = φ' τ s' → a.1.x s = b.1.x s' ∧ a.1.r s = b.1.r s' := by
  intro a b
  have ha : a = _ := C80_newton hD Is t q q0 hq U ess o x r rep
  have hb : b = _ := C80_newton hD' Is t q' q0 hq' U ess o x r rep
  rw [ha, hb]
  refine ⟨rfl, rfl, fun s s' h => ?_⟩
  simp only [iterMap, Function.comp, h, and_self]

end

/-- A single processor with everything is a distribution. -/
theorem C80_alone {ι : Type} {m : ℕ} {G : Shape ι m} {n : Fin m → ℕ} (M : Mesh G fun i => Fin (n i)) : Distributes (alone M) M (aloneDofs M) where
  cover := by simp [alone, List.finRange_succ]
  dofs _ _ _ _ _ := rfl

/-! ## Two segments on two processors -/

/-- Two segments with two dofs each and a boundary point. -/
def exG : Shape (Fin 3) 1 := ⟨fun _ e => ![2, 2, 1] e, fun e => decide (e = 2)⟩

/-- Segments from node 0 to 1 and from 1 to 2; the boundary point is node 2. -/
def exMesh : Mesh exG fun _ => Fin 3 where
  entities := [0, 1, 2]
  dof _ e a := match e, a with
    | 0, a => ⟨a.1, by have : a.1 < 2 := a.2; omega⟩
    | 1, a => ⟨a.1 + 1, by have : a.1 < 2 := a.2; omega⟩
    | 2, _ => 2

/-- The true dofs of the local dofs. -/
def exTdof (r : Fin 2) (l : Fin 2) : Σ r : Fin 2, Fin (r.1 + 1) :=
  if r = 0 ∧ l = 0 then ⟨0, ⟨0, by decide⟩⟩ else if r = 0 ∨ l = 1 then ⟨1, ⟨1, by decide⟩⟩ else ⟨1, ⟨0, by decide⟩⟩

/-- The first segment is on processor 0, which owns node 0 only; processor 1 has the others and numbers its dofs from the end. -/
def exWorld : World exG where
  ranks := 2
  mine r := ![[0], [2, 1]] r
  space _ := ⟨fun r => r.1 + 1, fun _ => 2, exTdof⟩
  ldof r _ e a := match r, e, a with
    | 0, _, a => if a.1 = 0 then 0 else 1
    | 1, 2, _ => 0
    | 1, _, a => if a.1 = 0 then 1 else 0

/-- The node of every true dof. -/
def exDof (s : Σ r : Fin 2, Fin (r.1 + 1)) : Fin 3 := if s.1 = 0 then 0 else if s.2.1 = 0 then 2 else 1

/-- The nodes and the true dofs. -/
def exDofs (i : Fin 1) : (exWorld.space i).True ≃ Fin 3 := Equiv.ofBijective exDof (by
  change Function.Bijective exDof
  decide)

theorem ex_distributes : Distributes exWorld exMesh exDofs where
  cover := by
    change ((List.finRange 2).flatMap fun r => (![[0], [2, 1]] : Fin 2 → List (Fin 3)) r).Perm [0, 1, 2]
    decide
  dofs := by
    change ∀ r : Fin 2, ∀ e : Fin 3, e ∈ (![[0], [2, 1]] : Fin 2 → List (Fin 3)) r → ∀ (i : Fin 1) (a : Fin ((![2, 2, 1] : Fin 3 → ℕ) e)),
      @Eq (Fin 3) (exDof (exTdof r (exWorld.ldof r i e a))) (exMesh.dof i e a)
    intro r e he i
    revert he
    fin_cases r <;> fin_cases e
    all_goals first | (intro he; exact absurd he (by decide)) | (intro _; change ∀ a : Fin 2, _; intro a; fin_cases a <;> rfl) |
      (intro _; change ∀ a : Fin 1, _; intro a; fin_cases a; rfl)

/-- A spring with cubic force and a counter that stiffens it, and a load at the boundary. -/
def exIntegrals : List (Integral exG 0 ℝ) :=
  [{ boundary := false, on := fun _ => true,
     value := fun _ _ q u a => (2 * a.1 - 1) * q * (∑ b, (2 * (b.1 : ℝ) - 1) * u 0 b) ^ 3
     next := fun _ _ q _ => q + 1
     derivative := fun _ _ _ _ _ _ _ => 0 },
   { boundary := true, on := fun _ => true, value := fun t _ _ _ _ => t, next := fun _ _ q _ => q, derivative := fun _ _ _ _ _ _ _ => 0 }]

example (cs : List (ℝ × Bool × (Fin 1 → Fin 3 → ℝ))) :
    (exWorld.run exIntegrals (cs.map fun c => ⟨c.1, c.2.1, spread exDofs c.2.2⟩) fun _ _ _ => 1).1 =
      (exMesh.run exIntegrals cs fun _ _ => 1).1.map (fun x => x ∘ exDofs 0) :=
  (C80_run ex_distributes (by decide) exIntegrals cs (fun _ _ _ => 1) (fun _ _ => 1) fun _ _ _ _ => rfl).1

/-- Two processors and one processor: the same solution of Newton's method. -/
example (o : Newton.Options) (x r : Fin 3 → ℝ) (rep : Newton.Report) (ess : Fin 3 → Bool) :
    (Newton.mult (exWorld.problem exIntegrals 1 (fun _ _ _ => 1) (spread exDofs fun _ _ => 0) (ess ∘ exDofs 0)) o (x ∘ exDofs 0) (r ∘ exDofs 0) rep).2 =
    (Newton.mult ((alone exMesh).problem exIntegrals 1 (fun _ _ _ => 1) (spread (aloneDofs exMesh) fun _ _ => 0) (ess ∘ aloneDofs exMesh 0)) o
      (x ∘ aloneDofs exMesh 0) (r ∘ aloneDofs exMesh 0) rep).2 :=
  (C80_newton_independent ex_distributes (C80_alone exMesh) exIntegrals 1 (fun _ _ _ => 1) (fun _ _ _ => 1) (fun _ _ => 1) (fun _ _ _ _ => rfl)
    (fun _ _ _ _ => rfl) (fun _ _ => 0) ess o x r rep).1

/-- The force on the shared node, owned by processor 1, has a part from processor 0. -/
example : exWorld.residual exIntegrals 5 (fun _ _ _ => 1) (spread exDofs fun _ => ![0, 1, 3]) (exTdof 1 1) = 1 - 8 := by
  refine (C80_residual ex_distributes exIntegrals 5 _ (fun _ _ => 1) (fun _ _ _ _ => rfl) _ (exTdof 1 1)).trans ?_
  have e : exDofs 0 (exTdof 1 1) = 1 := rfl
  rw [e]
  simp [Mesh.residual, Mesh.sum, exIntegrals, Mesh.domain, exMesh, exG, Mesh.values]
  change ((∑ x : Fin 2, if x.1 = 1 then (2 * (x.1 : ℝ) - 1) * (∑ b : Fin 2, (2 * (b.1 : ℝ) - 1) * (![0, 1, 3] : Fin 3 → ℝ) ⟨b.1, by omega⟩) ^ 3 else 0) +
      if (0 : Fin 2) ∈ (Finset.univ : Finset (Fin 2)) then -(∑ b : Fin 2, (2 * (b.1 : ℝ) - 1) * (![1, 3] : Fin 2 → ℝ) b) ^ 3 else 0) = 1 - 8
  rw [if_pos (Finset.mem_univ _)]
  simp only [Fin.sum_univ_two]
  norm_num

end Serac.C80
