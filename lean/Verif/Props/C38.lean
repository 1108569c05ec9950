import Verif.Model.Prefix
import Mathlib.Data.List.Nodup
/-!
# C38: field names

Spec.  A module `m ≠ ""` registers field `f` as `m_f`; the empty module leaves names alone.  Names can be recovered.

`C38_collision` shows that the recovery needs the module: names of different modules can coincide.
-/

namespace Serac.C38
open Serac.Prefix

theorem find_zero (needle s : List Char) : find needle s = some 0 ↔ needle <+: s := by
  cases s with
  | nil =>
    rw [find]
    cases needle <;> simp
  | cons c s =>
    rw [find]
    by_cases h : needle <+: c :: s
    · rw [if_pos (List.isPrefixOf_iff_prefix.2 h)]
      simp [h]
    · rw [if_neg (fun hp => h (List.isPrefixOf_iff_prefix.1 hp))]
      simp [h]

/-- **C38, names.** -/
theorem C38_name (m f : List Char) : (m ≠ [] → addPrefix m f = m ++ '_' :: f) ∧ addPrefix [] f = f ∧ removePrefix [] f = f := by
  refine ⟨fun h => ?_, rfl, rfl⟩
  rw [addPrefix, if_neg h, List.append_assoc]
  rfl

/-- **C38, round trip.** -/
theorem C38_round_trip (m f : List Char) : removePrefix m (addPrefix m f) = f := by
  by_cases h : m = []
  · subst h
    rfl
  · rw [addPrefix, if_neg h, removePrefix, if_pos h, if_pos ((find_zero _ _).2 (List.prefix_append _ _))]
    rw [show m.length + 1 = (m ++ ['_']).length by simp, List.drop_left]

/-- **C38, distinct names stay distinct.** -/
theorem C38_injective (m f g : List Char) (h : addPrefix m f = addPrefix m g) : f = g := by
  rw [← C38_round_trip m f, h, C38_round_trip]

/-- **C38, removal undoes nothing else.**  A name without the module's prefix is returned unchanged, and prefixing what was removed gives the name
back otherwise. -/
theorem C38_remove (m n : List Char) (hm : m ≠ []) :
    (¬(m ++ ['_']) <+: n → removePrefix m n = n) ∧ ((m ++ ['_']) <+: n → addPrefix m (removePrefix m n) = n) := by
  rw [removePrefix, if_pos hm]
  constructor
  · intro h
    rw [if_neg (fun hf => h ((find_zero _ _).1 hf))]
  · intro h
    obtain ⟨t, ht⟩ := h
    rw [if_pos ((find_zero _ _).2 ⟨t, ht⟩), addPrefix, if_neg hm, ← ht, show m.length + 1 = (m ++ ['_']).length by simp, List.drop_left]

/-- **C38, parameters.**  A module reports the parameter names it was given, and finds each of them (the first one if a name is repeated); other names
are errors. -/
theorem C38_parameters (m : List Char) (names : List (List Char)) : parameterNames m (register m names) = names ∧
    (∀ n, parameter m (register m names) n = names.findIdx? (n == ·)) := by
  constructor
  · rw [parameterNames, register, List.map_map]
    conv_rhs => rw [← List.map_id names]
    apply List.map_congr_left
    intro n _
    exact C38_round_trip m n
  · intro n
    rw [parameter, register, List.findIdx?_map]
    congr 1
    funext x
    rw [Function.comp]
    by_cases h : n = x
    · subst h
      simp
    · have : addPrefix m n ≠ addPrefix m x := fun hc => h (C38_injective m n x hc)
      rw [beq_eq_false_iff_ne.2 this, beq_eq_false_iff_ne.2 h]

/-- With distinct names every parameter is found at its own index. -/
theorem C38_index (m : List Char) (names : List (List Char)) (hd : names.Nodup) (i : ℕ) (n : List Char) (h : names[i]? = some n) :
    parameter m (register m names) n = some i := by
  rw [(C38_parameters m names).2, List.findIdx?_eq_some_iff_getElem]
  obtain ⟨hi, hn⟩ := List.getElem?_eq_some_iff.1 h
  refine ⟨hi, by rw [hn]; simp, ?_⟩
  intro j hj
  rw [Bool.not_eq_true, beq_eq_false_iff_ne, ← hn]
  intro hc
  have := (List.nodup_iff_injective_get.1 hd) (a₁ := ⟨i, hi⟩) (a₂ := ⟨j, by omega⟩) hc
  simp at this
  omega

/-- **C38, different modules.**  Names of two modules coincide exactly as strings; in particular module `m` with field `p_f` and module `m_p` with
field `f` share a name. -/
theorem C38_collision (m p f : List Char) (hm : m ≠ []) : addPrefix m (addPrefix p f) = addPrefix (addPrefix m p) f ∨ p = [] := by
  by_cases hp : p = []
  · exact Or.inr hp
  · left
    have hmp : addPrefix m p ≠ [] := by
      rw [addPrefix, if_neg hm]
      simp
    rw [(C38_name m _).1 hm, (C38_name p f).1 hp, (C38_name _ f).1 hmp, (C38_name m p).1 hm]
    simp

/-- Modules whose names contain no underscore and are not empty never share a name. -/
theorem C38_modules (m m' f g : List Char) (hm : m ≠ []) (hm' : m' ≠ []) (h1 : '_' ∉ m) (h2 : '_' ∉ m') (h : addPrefix m f = addPrefix m' g) :
    m = m' ∧ f = g := by
  have e : m = m' := by
    rw [(C38_name m f).1 hm, (C38_name m' g).1 hm'] at h
    have t1 : (m ++ '_' :: f).takeWhile (· ≠ '_') = m := by
      rw [List.takeWhile_append_of_pos]
      · simp
      · intro a ha
        have : a ≠ '_' := fun hc => h1 (hc ▸ ha)
        simpa using this
    have t2 : (m' ++ '_' :: g).takeWhile (· ≠ '_') = m' := by
      rw [List.takeWhile_append_of_pos]
      · simp
      · intro a ha
        have : a ≠ '_' := fun hc => h2 (hc ▸ ha)
        simpa using this
    rw [← t1, h, t2]
  subst e
  exact ⟨rfl, C38_injective m f g h⟩

/-! ### Examples -/

/-- The prefix may occur again inside the name. -/
example : removePrefix "a".toList (addPrefix "a".toList "a_a_x".toList) = "a_a_x".toList := by decide

example : parameter "solid".toList (register "solid".toList ["E".toList, "nu".toList]) "nu".toList = some 1 := by decide

end Serac.C38
