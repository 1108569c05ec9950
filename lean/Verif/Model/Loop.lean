import Mathlib.Data.Nat.Notation
/-!
# Counting loops

`for (int i = lo; i < hi; i++)` as a fold, used by several models.
-/

namespace Serac

/-- `for (int i = lo; i < hi; i++) s = body(i, s);` -/
def forRange {S : Type} (lo hi : ℕ) (body : ℕ → S → S) (s : S) : S :=
  (List.range' lo (hi - lo)).foldl (fun s i => body i s) s

theorem forRange_succ {S : Type} (lo k : ℕ) (body : ℕ → S → S) (s : S) :
    forRange lo (lo + (k + 1)) body s = body (lo + k) (forRange lo (lo + k) body s) := by
  unfold forRange
  rw [Nat.add_sub_cancel_left, Nat.add_sub_cancel_left, List.range'_concat, List.foldl_append]
  simp

theorem forRange_ge {S : Type} (lo hi : ℕ) (h : hi ≤ lo) (body : ℕ → S → S) (s : S) : forRange lo hi body s = s := by
  unfold forRange
  rw [Nat.sub_eq_zero_of_le h]; rfl

/-- Loop invariant rule. -/
theorem forRange_inv {S : Type} (I : ℕ → S → Prop) {lo hi : ℕ} {body : ℕ → S → S} {s : S} (hlo : lo ≤ hi) (h0 : I lo s)
    (step : ∀ i s, lo ≤ i → i < hi → I i s → I (i + 1) (body i s)) : I hi (forRange lo hi body s) := by
  obtain ⟨k, rfl⟩ := Nat.exists_eq_add_of_le hlo
  induction k with
  | zero => rw [forRange_ge _ _ (by omega)]; exact h0
  | succ k ih =>
    rw [forRange_succ]
    exact step (lo + k) _ (by omega) (by omega) (ih (by omega) fun i s h1 h2 h => step i s h1 (by omega) h)

end Serac
