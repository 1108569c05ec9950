import Verif.Proofs.NodeIds
/-! Helper lemmas about table rows and loop nests. -/

namespace Serac

theorem mem_upTo {x n : Int} : x ∈ upTo n ↔ 0 ≤ x ∧ x ≤ n := by
  simp only [upTo, List.mem_map, List.mem_range]
  constructor
  · rintro ⟨a, ha, rfl⟩; simp only [Int.ofNat_eq_natCast]; omega
  · rintro ⟨h0, h1⟩; exact ⟨x.toNat, by omega, by simp only [Int.ofNat_eq_natCast]; omega⟩

theorem mem_triLoop {p : Int} {q : Int × Int} :
    q ∈ triLoop p ↔ 0 ≤ q.1 ∧ 0 ≤ q.2 ∧ q.1 + q.2 ≤ p := by
  obtain ⟨i, j⟩ := q
  simp only [triLoop, List.mem_flatMap, List.mem_map, mem_upTo, Prod.mk.injEq]
  constructor
  · rintro ⟨a, ha, b, hb, rfl, rfl⟩; omega
  · rintro ⟨h1, h2, h3⟩; exact ⟨j, by omega, i, by omega, rfl, rfl⟩

theorem mem_quadLoop {p : Int} {q : Int × Int} :
    q ∈ quadLoop p ↔ (0 ≤ q.1 ∧ q.1 ≤ p) ∧ (0 ≤ q.2 ∧ q.2 ≤ p) := by
  obtain ⟨i, j⟩ := q
  simp only [quadLoop, List.mem_flatMap, List.mem_map, mem_upTo, Prod.mk.injEq]
  constructor
  · rintro ⟨a, ha, b, hb, rfl, rfl⟩; omega
  · rintro ⟨h1, h2⟩; exact ⟨j, by omega, i, by omega, rfl, rfl⟩

theorem Row.writes_spec (l : List (Int × Int)) : ∀ (r : Row) (f0 : Int → Int), r.val = some f0 →
    (∀ cv ∈ l, 0 ≤ cv.1 ∧ cv.1 < r.width) →
    (∀ a ∈ l, ∀ b ∈ l, a.1 = b.1 → a.2 = b.2) →
    ∃ f, (r.writes l).val = some f ∧ (∀ cv ∈ l, f cv.1 = cv.2) ∧
      (∀ x, (∀ cv ∈ l, cv.1 ≠ x) → f x = f0 x) := by
  induction l with
  | nil => intro r f0 h _ _; exact ⟨f0, h, by simp, by simp⟩
  | cons a l ih =>
    intro r f0 h hr hc
    have ha := hr a (by simp)
    have hw : (r.write a.1 a.2).val = some (fun x => if x = a.1 then a.2 else f0 x) := by
      simp [Row.write, h, ha]
    obtain ⟨f, h1, h2, h3⟩ := ih (r.write a.1 a.2) _ hw
      (fun cv hcv => hr cv (List.mem_cons_of_mem _ hcv))
      (fun x hx y hy => hc x (List.mem_cons_of_mem _ hx) y (List.mem_cons_of_mem _ hy))
    refine ⟨f, h1, ?_, ?_⟩
    · intro cv hcv
      rcases List.mem_cons.mp hcv with rfl | hcv
      · by_cases hex : ∃ b ∈ l, b.1 = cv.1
        · obtain ⟨b, hb, e⟩ := hex
          rw [← e, h2 b hb]
          exact hc b (List.mem_cons_of_mem _ hb) cv (by simp) e
        · rw [h3 cv.1 (fun b hb e => hex ⟨b, hb, e⟩)]; simp
      · exact h2 cv hcv
    · intro x hx
      rw [h3 x (fun b hb => hx b (List.mem_cons_of_mem _ hb))]
      have := hx a (by simp)
      simp [Ne.symm this]

/-- A table filled by a loop over items with column `c` and value `v`. -/
theorem Row.writes_map {α : Type} (items : List α) (c v : α → Int) (w : Int)
    (hr : ∀ a ∈ items, 0 ≤ c a ∧ c a < w)
    (hc : ∀ a ∈ items, ∀ b ∈ items, c a = c b → v a = v b) :
    ∃ f, ((Row.zero w).writes (items.map fun a => (c a, v a))).val = some f ∧ ∀ a ∈ items, f (c a) = v a := by
  obtain ⟨f, h1, h2, -⟩ := Row.writes_spec (items.map fun a => (c a, v a)) (Row.zero w) (fun _ => 0) rfl
    (by simpa [Row.zero] using hr)
    (by
      intro a ha b hb e
      simp only [List.mem_map] at ha hb
      obtain ⟨x, hx, rfl⟩ := ha
      obtain ⟨y, hy, rfl⟩ := hb
      exact hc x hx y hy e)
  exact ⟨f, h1, fun a ha => h2 (c a, v a) (List.mem_map.mpr ⟨a, ha, rfl⟩)⟩

end Serac
