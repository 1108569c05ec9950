import Verif.Model.FunctionalFrontEnd
import Verif.Props.C52
/-!
# C109: `differentiate_wrt` differentiates with respect to the argument it marks

Spec, in terms of calls only: calling an object with one marked argument returns the value that the same call
without the mark returns, and a gradient; applying the gradient to `dx` gives the derivative of the values that
calls with the marked argument replaced by `x + s dx` return.
-/

namespace Serac.C109
open Serac.FnCalls Serac.C52
open Serac.FrontEnd (Arg noDifferentiation indexOfDifferentiation)

variable {Tm T L E Q D : Type}

theorem index_none (bs : List Bool) (i : ℕ) (h : true ∉ bs) :
    indexOfDifferentiation bs i = noDifferentiation := by
  induction bs generalizing i with
  | nil => rfl
  | cons b bs ih =>
    simp only [List.mem_cons, not_or] at h
    cases b
    · simpa [indexOfDifferentiation] using ih (i + 1) h.2
    · exact absurd rfl h.1

theorem index_append (bs cs : List Bool) (i : ℕ) (h : true ∉ bs) :
    indexOfDifferentiation (bs ++ true :: cs) i = i + bs.length := by
  induction bs generalizing i with
  | nil => simp [indexOfDifferentiation]
  | cons b bs ih =>
    simp only [List.mem_cons, not_or] at h
    cases b
    · have := ih (i + 1) h.2
      simp only [List.cons_append, indexOfDifferentiation, List.length_cons]
      rw [if_neg (by simp), this]
      omega
    · exact absurd rfl h.1

/-- The argument list of plain vectors. -/
def plain (xs : List T) : List (Arg T) := xs.map .vector

theorem matching_plain (xs : List T) : (plain xs).map Arg.matching = List.replicate xs.length false := by
  induction xs with
  | nil => rfl
  | cons x xs ih =>
    simp only [plain, List.map_cons, List.length_cons, List.replicate_succ] at ih ⊢
    rw [ih]
    rfl

theorem true_notMem (xs : List T) : true ∉ (plain xs).map Arg.matching := by
  rw [matching_plain]
  simp

/-- What the object sees of plain vectors. -/
def values [Zero T] (xs : List T) (k : ℕ) : T := (xs[k]?).getD 0

section call
variable [Zero T] [AddCommGroup L] [AddCommGroup E]

theorem call_plain (ops : Ops T L E) (t : Tm) (xs : List T) (m : Mem Tm T L E Q D) :
    FrontEnd.call ops xs.length t (plain xs) m =
      some (evaluate ops none t (values xs) m, (evaluate ops none t (values xs) m).outputT, none) := by
  have h1 : ((plain xs).map Arg.matching).count true = 0 := List.count_eq_zero.2 (true_notMem xs)
  have h2 : (plain xs).length = xs.length := by simp [plain]
  have h3 : (fun k => (((plain xs)[k]?).map Arg.value).getD 0) = values xs := by
    funext k
    simp only [plain, List.getElem?_map, values]
    cases xs[k]? <;> rfl
  unfold FrontEnd.call
  rw [h1, h2, index_none _ _ (true_notMem xs), h3]
  simp

theorem call_marked (ops : Ops T L E) (t : Tm) (pre : List T) (x : T) (post : List T) (m : Mem Tm T L E Q D)
    (hn : (pre ++ x :: post).length < 2 ^ 31) :
    FrontEnd.call ops (pre ++ x :: post).length t (plain pre ++ .differentiateWrt x :: plain post) m =
      some (evaluate ops (some pre.length) t (values (pre ++ x :: post)) m,
        (evaluate ops (some pre.length) t (values (pre ++ x :: post)) m).outputT, some pre.length) := by
  have hm : (plain pre ++ Arg.differentiateWrt x :: plain post).map Arg.matching =
      (plain pre).map Arg.matching ++ true :: (plain post).map Arg.matching := by
    simp [Arg.matching]
  have h1 : ((plain pre ++ Arg.differentiateWrt x :: plain post).map Arg.matching).count true = 1 := by
    rw [hm, List.count_append, List.count_cons_self, List.count_eq_zero.2 (true_notMem pre),
      List.count_eq_zero.2 (true_notMem post)]
  have h2 : (plain pre ++ Arg.differentiateWrt x :: plain post).length = (pre ++ x :: post).length := by
    simp [plain]
  have h3 : (fun k => (((plain pre ++ Arg.differentiateWrt x :: plain post)[k]?).map Arg.value).getD 0) =
      values (pre ++ x :: post) := by
    funext k
    have e : (plain pre ++ Arg.differentiateWrt x :: plain post).map Arg.value = pre ++ x :: post := by
      have hp : ∀ l : List T, (plain l).map Arg.value = l := by
        intro l
        simp [plain, Function.comp_def, Arg.value]
      simp [hp, Arg.value]
    rw [values, ← e, List.getElem?_map]
  have h4 : indexOfDifferentiation ((plain pre ++ Arg.differentiateWrt x :: plain post).map Arg.matching) 0 =
      pre.length := by
    rw [hm, index_append _ _ _ (true_notMem pre)]
    simp [plain]
  have h5 : pre.length ≠ noDifferentiation := by
    simp only [List.length_append, List.length_cons] at hn
    unfold noDifferentiation
    omega
  unfold FrontEnd.call
  rw [h1, h2, h4, h3]
  simp [h5]

/-- Marks that do not compile: more than one, or the wrong number of arguments. -/
theorem C109_rejected (ops : Ops T L E) (n : ℕ) (t : Tm) (args : List (Arg T)) (m : Mem Tm T L E Q D) :
    FrontEnd.call ops n t args m = none ↔
      args.length ≠ n ∨ ∃ (i j : ℕ) (x y : T), i < j ∧ args[i]? = some (Arg.differentiateWrt x) ∧
        args[j]? = some (Arg.differentiateWrt y) := by
  have key : ∀ args : List (Arg T), 1 < (args.map Arg.matching).count true ↔
      ∃ (i j : ℕ) (x y : T), i < j ∧ args[i]? = some (Arg.differentiateWrt x) ∧ args[j]? = some (Arg.differentiateWrt y) := by
    intro args
    have pos : ∀ args : List (Arg T), 0 < (args.map Arg.matching).count true ↔
        ∃ (j : ℕ) (y : T), args[j]? = some (Arg.differentiateWrt y) := by
      intro args
      rw [List.count_pos_iff, List.mem_map]
      constructor
      · rintro ⟨a, ha, hm⟩
        obtain ⟨j, hj⟩ := List.mem_iff_getElem?.1 ha
        cases a with
        | vector x => cases hm
        | differentiateWrt y => exact ⟨j, y, hj⟩
      · rintro ⟨j, y, hj⟩
        exact ⟨_, List.mem_iff_getElem?.2 ⟨j, hj⟩, rfl⟩
    induction args with
    | nil => simp
    | cons a args ih =>
      cases a with
      | vector x =>
        have : ((Arg.vector x :: args).map Arg.matching).count true = (args.map Arg.matching).count true := by
          simp [Arg.matching]
        rw [this]
        refine ih.trans ?_
        constructor
        · rintro ⟨i, j, x', y, hij, h1, h2⟩
          exact ⟨i + 1, j + 1, x', y, by omega, by simpa using h1, by simpa using h2⟩
        · rintro ⟨i, j, x', y, hij, h1, h2⟩
          cases i with
          | zero => simp at h1
          | succ i =>
            cases j with
            | zero => omega
            | succ j => exact ⟨i, j, x', y, by omega, by simpa using h1, by simpa using h2⟩
      | differentiateWrt x =>
        have : ((Arg.differentiateWrt x :: args).map Arg.matching).count true =
            (args.map Arg.matching).count true + 1 := by
          simp [Arg.matching]
        rw [this]
        constructor
        · intro h
          obtain ⟨j, y, hj⟩ := (pos args).1 (by omega)
          exact ⟨0, j + 1, x, y, by omega, rfl, by simpa using hj⟩
        · rintro ⟨i, j, x', y, hij, h1, h2⟩
          cases j with
          | zero => omega
          | succ j =>
            have := (pos args).2 ⟨j, y, by simpa using h2⟩
            omega
  unfold FrontEnd.call
  rw [← key]
  by_cases h1 : 1 < (args.map Arg.matching).count true
  · simp [h1]
  · by_cases h2 : args.length = n
    · simp [h1, h2]
    · simp [h1, h2]

/-- A call without a mark returns only a value. -/
theorem C109_plain (ops : Ops T L E) (t : Tm) (xs : List T) (m : Mem Tm T L E Q D) :
    ∃ m' v, FrontEnd.call ops xs.length t (plain xs) m = some (m', v, none) :=
  ⟨_, _, call_plain ops t xs m⟩

/-- A mark does not change the value, and makes the call return a gradient. -/
theorem C109_value (ops : Ops T L E) (hS : ∀ d e l, ops.scatterAdd d e l = l + ops.scatterAdd d e 0) (t : Tm)
    (pre : List T) (x : T) (post : List T) (m : Mem Tm T L E Q D) (hI : ∀ I ∈ m.integrals, Sound I)
    (hn : (pre ++ x :: post).length < 2 ^ 31) :
    ∃ m' m'' v w, FrontEnd.call ops (pre ++ x :: post).length t (plain pre ++ .differentiateWrt x :: plain post) m =
        some (m', v, some w) ∧
      FrontEnd.call ops (pre ++ x :: post).length t (plain (pre ++ x :: post)) m = some (m'', v, none) := by
  refine ⟨_, evaluate ops none t (values (pre ++ x :: post)) m, _, _, call_marked ops t pre x post m hn, ?_⟩
  rw [call_plain]
  have h1 := C52_value ops hS (some pre.length) t (values (pre ++ x :: post)) m _ hI [] (by simp) rfl
  have h2 := C52_value ops hS none t (values (pre ++ x :: post)) m _ hI [] (by simp) rfl
  rw [h1, h2]
end call

section deriv
variable [NormedAddCommGroup T] [NormedSpace ℝ T] [NormedAddCommGroup L] [NormedSpace ℝ L]
  [NormedAddCommGroup E] [NormedSpace ℝ E]

/-- The gradient returned by a call with a marked argument is the derivative with respect to that argument of
the values that calls return. -/
theorem C109_gradient_partial (ops : Ops T L E) (lin : Linear ops) (t : Tm) (pre : List T) (x : T) (post : List T)
    (m : Mem Tm T L E Q D) (hu : m.update = false) (hI : ∀ I ∈ m.integrals, Sound I)
    (hD : ∀ I ∈ m.integrals, Differentiates I) (hnd : ∀ I ∈ m.integrals, I.active.Nodup)
    (hn : (pre ++ x :: post).length < 2 ^ 31) :
    ∃ m' v w, FrontEnd.call ops (pre ++ x :: post).length t (plain pre ++ .differentiateWrt x :: plain post) m =
        some (m', v, some w) ∧
      ∀ (ds : List (Call Tm T E Q D)) (m₂ : Mem Tm T L E Q D), (∀ c ∈ ds, Call.Sound c) →
        (∀ c ∈ ds, Call.Quiet w c) → run ops m' ds = some m₂ → ∀ dx : T,
        ∃ (m₃ : Mem Tm T L E Q D) (dv : T) (f : ℝ → T), action ops w dx m₂ = some (m₃, dv) ∧
          (∀ s, ∃ m₄, FrontEnd.call ops (pre ++ x :: post).length t (plain (pre ++ (x + s • dx) :: post)) m =
            some (m₄, f s, none)) ∧
          HasDerivAt f dv 0 := by
  refine ⟨_, _, _, call_marked ops t pre x post m hn, ?_⟩
  intro ds m₂ hs hq hr dx
  obtain ⟨m₃, dv, h1, h2⟩ := C52_observable_partial ops lin pre.length t (values (pre ++ x :: post)) m m₂ hu hI hD
    hnd ds hs hq hr dx
  refine ⟨m₃, dv, _, h1, fun s => ?_, h2⟩
  have hlen : (pre ++ x :: post).length = (pre ++ (x + s • dx) :: post).length := by simp
  have hv : values (pre ++ (x + s • dx) :: post) = Function.update (values (pre ++ x :: post)) pre.length
      (values (pre ++ x :: post) pre.length + s • dx) := by
    funext k
    by_cases hk : k = pre.length
    · subst hk
      simp [values]
    · rw [Function.update_of_ne hk]
      rcases Nat.lt_or_gt_of_ne hk with hlt | hgt
      · simp [values, List.getElem?_append_left hlt]
      · obtain ⟨j, rfl⟩ : ∃ j, k = pre.length + (j + 1) := ⟨k - pre.length - 1, by omega⟩
        simp [values, List.getElem?_append_right]
  rw [hlen, call_plain, hv]
  exact ⟨_, rfl⟩
end deriv

/-- One integral, the product of two arguments; the second is marked. -/
example : ∃ m' v w, FrontEnd.call idOps 2 0 [.vector 2, .differentiateWrt 3] (C52.single [0, 1]) =
      some (m', v, some w) ∧ ∃ m₃, action idOps w 10 m' = some (m₃, 20) := by
  have hI : ∀ I ∈ (C52.single [0, 1]).integrals, Sound I ∧ Differentiates I ∧ I.active.Nodup := by
    intro I hI
    simp only [C52.single, List.mem_singleton] at hI
    subst hI
    exact ⟨product_sound _, product_differentiates _ rfl, by simp [product]⟩
  obtain ⟨m', v, w, h1, h2⟩ := C109_gradient_partial idOps idLinear (0 : ℝ) [2] 3 [] (C52.single [0, 1]) rfl
    (fun I h => (hI I h).1) (fun I h => (hI I h).2.1) (fun I h => (hI I h).2.2) (by simp)
  obtain ⟨m₃, dv, f, k1, k2, k3⟩ := h2 [] m' (by simp) (by simp) rfl 10
  have hf : f = fun s => 2 * (3 + s * 10) := by
    funext s
    obtain ⟨m₄, k4⟩ := k2 s
    have k5 := call_plain idOps (0 : ℝ) [2, 3 + s • 10] (C52.single [0, 1])
    have k6 := k4.symm.trans k5
    simp only [Option.some.injEq, Prod.mk.injEq] at k6
    rw [k6.2.1]
    simp [evaluate, C52.single, evalStep, gatherActive, FnCalls.mult, product, idOps, values]
  have hd : HasDerivAt f 20 0 := by
    rw [hf]
    have := (((hasDerivAt_id (0 : ℝ)).mul_const 10).const_add 3).const_mul 2
    norm_num at this
    exact this
  rw [k3.unique hd] at k1
  exact ⟨m', v, w, h1, m₃, k1⟩

end Serac.C109
