import Verif.Model.ForConstexpr
import Mathlib.Algebra.BigOperators.Group.Finset.Basic
import Mathlib.Data.List.Lex
import Mathlib.Algebra.Ring.Nat
/-!
# C110: loops over tensors of any rank visit every component once, in lexicographic order

Spec: `is` is a multi-index of shape `ns` if it has the length of `ns` and each index is below the extent
(`List.Forall₂ (· < ·) is ns`).
-/

namespace Serac.C110
open Serac.ForConstexpr

/-- The multi-indices for which the body of a loop is executed, in order. -/
def visited (ns : List ℕ) : List (List ℕ) := forConstexpr ns (fun is tr => tr ++ [is]) []

/-- Multi-indices of a shape. -/
def Index (ns : List ℕ) (is : List ℕ) : Prop := List.Forall₂ (· < ·) is ns

/-! ### Proofs -/

def multi : List ℕ → List (List ℕ)
  | [] => [[]]
  | n :: ns => (List.range n).flatMap fun i => (multi ns).map (i :: ·)

theorem foldl_flatMap' {α β σ : Type} (g : α → List β) (f : σ → β → σ) (l : List α) (s : σ) :
    (l.flatMap g).foldl f s = l.foldl (fun s a => (g a).foldl f s) s := by
  induction l generalizing s with
  | nil => rfl
  | cons a l ih => rw [List.flatMap_cons, List.foldl_append, ih, List.foldl_cons]

theorem detail_consts {σ : Type} (f : List ℕ → σ → σ) (cs : List ℕ) (s : σ) :
    detail f (cs.map .const) s = f cs s := by
  have h : ∀ cs : List ℕ, (cs.map Arg.const).filterMap Arg.index = cs := by
    intro cs
    induction cs with
    | nil => rfl
    | cons c cs ih =>
      rw [List.map_cons, List.filterMap_cons]
      simp only [Arg.index]
      rw [ih]
  cases cs with
  | nil => simp [detail]
  | cons c cs => rw [List.map_cons, detail, h]

theorem detail_eq {σ : Type} (f : List ℕ → σ → σ) (ns : List ℕ) : ∀ (cs : List ℕ) (s : σ),
    detail f ((ns.map fun n => Arg.seq (List.range n)) ++ cs.map .const) s =
      (multi ns).foldl (fun s is => f (cs ++ is) s) s := by
  induction ns with
  | nil => intro cs s; simp [detail_consts, multi]
  | cons n ns ih =>
    intro cs s
    rw [List.map_cons, List.cons_append, detail, multi, foldl_flatMap']
    congr 1
    funext s i
    have := ih (cs ++ [i]) s
    rw [List.map_append, ← List.append_assoc] at this
    rw [List.map_cons, List.map_nil] at this
    rw [this, List.foldl_map]
    simp

theorem forConstexpr_eq {σ : Type} (ns : List ℕ) (f : List ℕ → σ → σ) (s : σ) :
    forConstexpr ns f s = (multi ns).foldl (fun s is => f is s) s := by
  have := detail_eq f ns [] s
  simpa [forConstexpr] using this

theorem visited_eq (ns : List ℕ) : visited ns = multi ns := by
  rw [visited, forConstexpr_eq]
  have : ∀ (l tr : List (List ℕ)), l.foldl (fun s is => s ++ [is]) tr = tr ++ l := by
    intro l
    induction l with
    | nil => simp
    | cons a l ih => intro tr; simp [ih]
  simpa using this (multi ns) []

theorem mem_multi (ns is : List ℕ) : is ∈ multi ns ↔ Index ns is := by
  induction ns generalizing is with
  | nil => simp [multi, Index]
  | cons n ns ih =>
    simp only [multi, List.mem_flatMap, List.mem_range, List.mem_map]
    constructor
    · rintro ⟨i, hi, js, hjs, rfl⟩
      exact .cons hi ((ih js).1 hjs)
    · intro h
      cases h with
      | cons hi hjs => exact ⟨_, hi, _, (ih _).2 hjs, rfl⟩

theorem sorted_multi (ns : List ℕ) : (multi ns).Pairwise (List.Lex (· < ·)) := by
  induction ns with
  | nil => simp [multi]
  | cons n ns ih =>
    rw [multi, List.pairwise_flatMap]
    refine ⟨fun i _ => ?_, ?_⟩
    · rw [List.pairwise_map]
      exact ih.imp fun h => .cons h
    · refine List.pairwise_lt_range.imp ?_
      intro i j hij a ha b hb
      obtain ⟨a', _, rfl⟩ := List.mem_map.1 ha
      obtain ⟨b', _, rfl⟩ := List.mem_map.1 hb
      exact .rel hij

theorem nodup_multi (ns : List ℕ) : (multi ns).Nodup := by
  refine (sorted_multi ns).imp ?_
  rintro a b h rfl
  induction a with
  | nil => cases h
  | cons x a ih =>
    cases h with
    | cons h => exact ih h
    | rel h => exact absurd h (Nat.lt_irrefl _)

theorem foldl_sum {R : Type} [AddCommMonoid R] (g : List ℕ → R) (l : List (List ℕ)) (hl : l.Nodup)
    (S : Finset (List ℕ)) (hS : ∀ is, is ∈ S ↔ is ∈ l) :
    l.foldl (fun total is => total + g is) 0 = ∑ is ∈ S, g is := by
  have h1 : ∀ (l : List (List ℕ)) (s : R), l.foldl (fun total is => total + g is) s = s + (l.map g).sum := by
    intro l
    induction l with
    | nil => simp
    | cons a l ih => intro s; simp [ih, add_assoc]
  have h2 : S = l.toFinset := by
    ext is
    rw [hS, List.mem_toFinset]
  rw [h1, zero_add, h2, List.sum_toFinset g hl]

theorem foldl_assign {β : Type} (g : List ℕ → β) (l : List (List ℕ)) (v : List ℕ → β) (k : List ℕ) :
    l.foldl (fun v is => fun k => if k = is then g is else v k) v k = if k ∈ l then g k else v k := by
  induction l generalizing v with
  | nil => simp
  | cons a l ih =>
    rw [List.foldl_cons, ih]
    by_cases h1 : k ∈ l
    · simp [h1]
    · by_cases h2 : k = a
      · subst h2; simp [h1]
      · simp [h1, h2]

/-! ### Theorems -/

/-- Exactly the multi-indices of the shape are visited, each once, in lexicographic order: later extents belong to
inner loops. -/
theorem C110_visits (ns : List ℕ) :
    (∀ is, is ∈ visited ns ↔ Index ns is) ∧ (visited ns).Nodup ∧ (visited ns).Pairwise (List.Lex (· < ·)) := by
  rw [visited_eq]
  exact ⟨mem_multi ns, nodup_multi ns, sorted_multi ns⟩

/-- The body is executed for these multi-indices and nothing else happens. -/
theorem C110_effect {σ : Type} (ns : List ℕ) (f : List ℕ → σ → σ) (s : σ) :
    forConstexpr ns f s = (visited ns).foldl (fun s is => f is s) s := by
  rw [visited_eq, forConstexpr_eq]

/-- The squared norm is the sum of the squares of all components. -/
theorem C110_norm {R : Type} [Semiring R] (ns : List ℕ) (A : List ℕ → R) (S : Finset (List ℕ))
    (hS : ∀ is, is ∈ S ↔ Index ns is) : squaredNorm ns A = ∑ is ∈ S, A is * A is := by
  rw [squaredNorm, forConstexpr_eq]
  exact foldl_sum (fun is => A is * A is) _ (nodup_multi ns) S fun is => (hS is).trans (mem_multi ns is).symm

/-- The chain rule of a scalar-valued function is the inner product. -/
theorem C110_chain {R : Type} [Semiring R] (ns : List ℕ) (df dx : List ℕ → R) (S : Finset (List ℕ))
    (hS : ∀ is, is ∈ S ↔ Index ns is) : chainRule ns df dx = ∑ is ∈ S, df is * dx is := by
  rw [chainRule, forConstexpr_eq]
  exact foldl_sum (fun is => df is * dx is) _ (nodup_multi ns) S fun is => (hS is).trans (mem_multi ns is).symm

/-- `isnan` finds every component that is not a number, and only those. -/
theorem C110_nan {R : Type} (nan : R → Bool) (ns : List ℕ) (A : List ℕ → R) :
    isnan nan ns A = true ↔ ∃ is, Index ns is ∧ nan (A is) = true := by
  rw [isnan, forConstexpr_eq]
  have : ∀ (l : List (List ℕ)) (b : Bool),
      l.foldl (fun found is => found || nan (A is)) b = true ↔ b = true ∨ ∃ is ∈ l, nan (A is) = true := by
    intro l
    induction l with
    | nil => simp
    | cons a l ih => intro b; rw [List.foldl_cons, ih]; simp [or_assoc]
  rw [this]
  simp [mem_multi]

/-- Values and gradients of a tensor of dual numbers are those of its components. -/
theorem C110_dual {R G : Type} [Zero R] [Zero G] (ns : List ℕ) (arg : List ℕ → R × G) (is : List ℕ)
    (h : Index ns is) : getValue ns arg is = (arg is).1 ∧ getGradient ns arg is = (arg is).2 := by
  rw [getValue, getGradient, forConstexpr_eq, forConstexpr_eq, foldl_assign (fun is => (arg is).1),
    foldl_assign (fun is => (arg is).2), if_pos ((mem_multi ns is).2 h), if_pos ((mem_multi ns is).2 h)]
  exact ⟨rfl, rfl⟩

/-- `make_dual` starts with the derivative of the identity: the value of each component is that of the tensor, and
its gradient contracted with an increment is the component of the increment. -/
theorem C110_seed {R : Type} [Semiring R] (ns : List ℕ) (A dx : List ℕ → R) (is : List ℕ) (h : Index ns is) :
    getValue ns (makeDual ns A) is = A is ∧ chainRule ns (getGradient ns (makeDual ns A) is) dx = dx is := by
  have key : ∀ (l : List (List ℕ)), l.Nodup → ∀ (d : List ℕ → R × (List ℕ → R)) (k : List ℕ),
      l.foldl (fun d i => fun k => if k = i then (A i, fun l => if l = i then 1 else (d i).2 l) else d k) d k =
        if k ∈ l then (A k, fun l => if l = k then 1 else (d k).2 l) else d k := by
    intro l
    induction l with
    | nil => intro _ d k; simp
    | cons a l ih =>
      intro hl d k
      obtain ⟨h1, h2⟩ := List.nodup_cons.1 hl
      rw [List.foldl_cons, ih h2]
      by_cases hk : k = a
      · subst hk; simp [h1]
      · simp [hk]
  have hd : makeDual ns A is = (A is, fun l => if l = is then 1 else 0) := by
    rw [makeDual, forConstexpr_eq, key _ (nodup_multi ns), if_pos ((mem_multi ns is).2 h)]
  obtain ⟨h1, h2⟩ := C110_dual ns (makeDual ns A) is h
  rw [h1, h2, hd]
  refine ⟨rfl, ?_⟩
  rw [C110_chain ns _ dx (multi ns).toFinset (fun i => by rw [List.mem_toFinset, mem_multi])]
  rw [Finset.sum_eq_single is]
  · simp
  · intro b _ hb; simp [hb]
  · intro hn; exact absurd (List.mem_toFinset.2 ((mem_multi ns is).2 h)) hn

/-- `get_gradient` of dual numbers with several gradients returns each of them, for every component. -/
theorem C110_blocks {R G : Type} [Zero G] (N : ℕ) (ns : List ℕ) (arg : List ℕ → R × (ℕ → G)) (b : ℕ) (is : List ℕ)
    (hb : b < N) (h : Index ns is) : getGradientTuple N ns arg b is = (arg is).2 b := by
  have inner : ∀ (i : List ℕ) (l : List ℕ) (g : ℕ → List ℕ → G) (b : ℕ) (k : List ℕ),
      (l.map fun j => [j]).foldl (fun g j => fun b k =>
        if b = j.headD 0 ∧ k = i then (arg i).2 (j.headD 0) else g b k) g b k =
        if b ∈ l ∧ k = i then (arg i).2 b else g b k := by
    intro i l
    induction l with
    | nil => intro g b k; simp
    | cons a l ih =>
      intro g b k
      rw [List.map_cons, List.foldl_cons, ih]
      by_cases hk : k = i
      · by_cases hl : b ∈ l
        · simp [hk, hl]
        · by_cases ha : b = a
          · subst ha; simp [hk]
          · simp [hk, hl, ha]
      · simp [hk]
  have hm : multi [N] = (List.range N).map fun j => [j] := by
    simp only [multi, List.map_cons, List.map_nil]
    induction List.range N with
    | nil => rfl
    | cons a l ih => rw [List.flatMap_cons, ih]; rfl
  have outer : ∀ (l : List (List ℕ)) (g : ℕ → List ℕ → G) (k : List ℕ),
      l.foldl (fun g i => forConstexpr [N] (fun j g => fun b k =>
        if b = j.headD 0 ∧ k = i then (arg i).2 (j.headD 0) else g b k) g) g b k =
        if k ∈ l then (arg k).2 b else g b k := by
    intro l
    induction l with
    | nil => intro g k; simp
    | cons a l ih =>
      intro g k
      rw [List.foldl_cons, ih, forConstexpr_eq, hm, inner]
      by_cases hk : k = a
      · subst hk; simp [hb]
      · simp [hk]
  rw [getGradientTuple, forConstexpr_eq, outer, if_pos ((mem_multi ns is).2 h)]

/-- `make_dual_helper<i, N>` starts with the derivative of the identity by the `i`-th argument, and with no derivative
by the others. -/
theorem C110_seeds {R : Type} [Semiring R] (i N : ℕ) (ns : List ℕ) (A dx : List ℕ → R) (b : ℕ) (is : List ℕ)
    (hb : b < N) (h : Index ns is) :
    getValue ns (makeDualHelper i ns A) is = A is ∧
      chainRule ns (getGradientTuple N ns (makeDualHelper i ns A) b is) dx = if b = i then dx is else 0 := by
  have key : ∀ (l : List (List ℕ)), l.Nodup → ∀ (d : List ℕ → R × (ℕ → List ℕ → R)) (k : List ℕ),
      l.foldl (fun d j => fun k =>
        if k = j then (A j, fun b l => if b = i ∧ l = j then 1 else (d j).2 b l) else d k) d k =
        if k ∈ l then (A k, fun b l => if b = i ∧ l = k then 1 else (d k).2 b l) else d k := by
    intro l
    induction l with
    | nil => intro _ d k; simp
    | cons a l ih =>
      intro hl d k
      obtain ⟨h1, h2⟩ := List.nodup_cons.1 hl
      rw [List.foldl_cons, ih h2]
      by_cases hk : k = a
      · subst hk; simp [h1]
      · simp [hk]
  have hd : makeDualHelper i ns A is = (A is, fun b l => if b = i ∧ l = is then 1 else 0) := by
    rw [makeDualHelper, forConstexpr_eq, key _ (nodup_multi ns), if_pos ((mem_multi ns is).2 h)]
  rw [(C110_dual ns (makeDualHelper i ns A) is h).1, C110_blocks N ns _ b is hb h, hd]
  refine ⟨rfl, ?_⟩
  rw [C110_chain ns _ dx (multi ns).toFinset (fun i => by rw [List.mem_toFinset, mem_multi])]
  by_cases hi : b = i
  · rw [Finset.sum_eq_single is]
    · simp [hi]
    · intro b _ hb; simp [hb]
    · intro hn; exact absurd (List.mem_toFinset.2 ((mem_multi ns is).2 h)) hn
  · rw [if_neg hi]
    exact Finset.sum_eq_zero fun j _ => by simp [hi]

/-- The second of three arguments, a matrix. -/
example (A dx : List ℕ → ℕ) : chainRule [2, 3] (getGradientTuple 3 [2, 3] (makeDualHelper 1 [2, 3] A) 1 [1, 2]) dx =
    dx [1, 2] :=
  (C110_seeds 1 3 [2, 3] A dx 1 [1, 2] (by decide) (by simp [Index])).2

/-- The example in the documentation of `for_constexpr`. -/
example : visited [2, 3] = [[0, 0], [0, 1], [0, 2], [1, 0], [1, 1], [1, 2]] := by
  rw [visited_eq]; decide

/-- A tensor of rank three. -/
example : squaredNorm [2, 1, 2] (fun is => is.getD 0 0 + 2 * is.getD 2 0) = 14 := by
  rw [squaredNorm, forConstexpr_eq]; decide

end Serac.C110
