import Verif.Model.MeshBuild
import Verif.Props.C39
import Mathlib.Tactic.Linarith
import Mathlib.Tactic.Ring
import Mathlib.Tactic.FieldSimp
import Mathlib.Tactic.Positivity
import Mathlib.Tactic.FinCases
import Mathlib.Tactic.Abel
import Mathlib.Tactic.IntervalCases
import Mathlib.Algebra.BigOperators.Field
/-!
# C64: the disk, ball, cylinder and quarter cylinder meshes are what their names say
-/

noncomputable section
namespace Serac.C64
open Serac.MeshBuild Real

/-! ## The loop -/

/-- What a loop that stops has done. -/
theorem loop_iterate {σ : Type} {c : σ → Prop} {f : σ → σ} {s t : σ} (h : Loop c f s t) : ∃ k, t = f^[k] s ∧ ¬ c t ∧ ∀ j < k, c (f^[j] s) := by
  induction h with
  | done h => exact ⟨0, rfl, h, by simp⟩
  | step h _ ih =>
    obtain ⟨k, e, hn, hj⟩ := ih
    refine ⟨k + 1, e, hn, fun j hlt => ?_⟩
    cases j with
    | zero => exact h
    | succ j => exact hj j (by omega)

theorem loop_stops {σ : Type} {c : σ → Prop} {f : σ → σ} (k : ℕ) : ∀ s : σ, ¬ c (f^[k] s) → ∃ t, Loop c f s t := by
  induction k with
  | zero => exact fun s h => ⟨s, .done h⟩
  | succ k ih =>
    intro s h
    by_cases hc : c s
    · obtain ⟨t, ht⟩ := ih (f s) h
      exact ⟨t, .step hc ht⟩
    · exact ⟨s, .done hc⟩

theorem loop_unique {σ : Type} {c : σ → Prop} {f : σ → σ} {s t u : σ} (h : Loop c f s t) (h' : Loop c f s u) : t = u := by
  induction h with
  | done h =>
    cases h' with
    | done => rfl
    | step h2 => exact absurd h2 h
  | step h _ ih =>
    cases h' with
    | done h2 => exact absurd h h2
    | step _ h2 => exact ih h2

/-- Number of elements and of boundary elements after `k` refinements. -/
theorem count {E B : Type} (fe : E → List E) (fb : B → List B) (m : Mesh E B) (a b : ℕ) (he : ∀ e, (fe e).length = a) (hb : ∀ e, (fb e).length = b) (k : ℕ) :
    ((uniform fe fb)^[k] m).elems.length = m.elems.length * a ^ k ∧ ((uniform fe fb)^[k] m).bdr.length = m.bdr.length * b ^ k := by
  induction k with
  | zero => simp
  | succ k ih =>
    rw [Function.iterate_succ_apply']
    simp only [uniform, List.length_flatMap, he, hb, List.map_const', List.sum_replicate, smul_eq_mul, ih.1, ih.2, pow_succ]
    exact ⟨by ring, by ring⟩

def diskAt (k : ℕ) : Mesh (Tri 2) (Seg 2) := (uniform refineTri refineSeg)^[k] coarseDisk

def ballAt (split : Tet → List Tet) (k : ℕ) : Mesh Tet (Tri 3) := (uniform split refineTri)^[k] coarseBall

theorem disk_count (k : ℕ) : (diskAt k).elems.length = 4 * 4 ^ k ∧ (diskAt k).bdr.length = 4 * 2 ^ k := by
  have := count refineTri refineSeg coarseDisk 4 2 (fun _ => rfl) (fun _ => rfl) k
  exact this

theorem ball_count (split : Tet → List Tet) (h : Subdivides split) (k : ℕ) : (ballAt split k).elems.length = 8 * 8 ^ k ∧ (ballAt split k).bdr.length = 8 * 4 ^ k := by
  have := count split refineTri coarseBall 8 4 (fun t => (h t).1) (fun _ => rfl) k
  exact this

theorem diskCond_iff (a : ℤ) (k : ℕ) : diskCond a (diskAt k) ↔ 2 * (4 * 4 ^ k : ℤ) < a := by
  unfold diskCond
  rw [(disk_count k).1]
  constructor
  · intro h
    have : ((2 * (4 * 4 ^ k) : ℤ) : ℝ) < (a : ℝ) := by push_cast at h ⊢; linarith
    exact_mod_cast this
  · intro h
    have : ((2 * (4 * 4 ^ k) : ℤ) : ℝ) < (a : ℝ) := by exact_mod_cast h
    push_cast at this ⊢
    linarith

theorem ballCond_iff (split : Tet → List Tet) (hs : Subdivides split) (a : ℤ) (k : ℕ) : ballCond a (ballAt split k) ↔ 4 * (8 * 8 ^ k : ℤ) < a := by
  unfold ballCond
  rw [(ball_count split hs k).1]
  constructor
  · intro h
    have : ((4 * (8 * 8 ^ k) : ℤ) : ℝ) < (a : ℝ) := by push_cast at h ⊢; linarith
    exact_mod_cast this
  · intro h
    have : ((4 * (8 * 8 ^ k) : ℤ) : ℝ) < (a : ℝ) := by exact_mod_cast h
    push_cast at this ⊢
    linarith

/-- The level at which the disk is returned. -/
theorem disk_level (a : ℤ) (m : Mesh (Tri 2) (Seg 2)) (h : DiskMesh a m) :
    ∃ k : ℕ, m = ⟨(diskAt k).elems.map (Tri.map squish), (diskAt k).bdr.map (Seg.map squish)⟩ ∧ a ≤ 2 * (4 * 4 ^ k) ∧ ∀ j < k, 2 * (4 * 4 ^ j : ℤ) < a := by
  obtain ⟨r, hl, rfl⟩ := h
  obtain ⟨k, rfl, hn, hj⟩ := loop_iterate hl
  refine ⟨k, rfl, ?_, fun j h => (diskCond_iff a j).1 (hj j h)⟩
  have := (diskCond_iff a k).not.1 hn
  omega

theorem ball_level (split : Tet → List Tet) (hs : Subdivides split) (a : ℤ) (m : Mesh Tet (Tri 3)) (h : BallMesh split a m) :
    ∃ k : ℕ, m = ⟨(ballAt split k).elems.map (Tet.map squish), (ballAt split k).bdr.map (Tri.map squish)⟩ ∧ a ≤ 4 * (8 * 8 ^ k) ∧ ∀ j < k, 4 * (8 * 8 ^ j : ℤ) < a := by
  obtain ⟨r, hl, rfl⟩ := h
  obtain ⟨k, rfl, hn, hj⟩ := loop_iterate hl
  refine ⟨k, rfl, ?_, fun j h => (ballCond_iff split hs a j).1 (hj j h)⟩
  have := (ballCond_iff split hs a k).not.1 hn
  omega

/-- **C64, the size of a disk**: for every requested number the loop ends with exactly one mesh; it has `4 · 4^k` triangles and `4 · 2^k` boundary segments, at least half
and, when it was refined at all, less than twice as many triangles as requested; for a 32-bit request the count does not overflow. -/
theorem C64_disk_count (a : ℤ) : (∃! m, DiskMesh a m) ∧ ∀ m, DiskMesh a m → ∃ k : ℕ, m.elems.length = 4 * 4 ^ k ∧ m.bdr.length = 4 * 2 ^ k ∧
    a ≤ 2 * (m.elems.length : ℤ) ∧ (0 < k → (m.elems.length : ℤ) < 2 * a) ∧ (a < 2 ^ 31 → m.elems.length ≤ 2 ^ 30) := by
  constructor
  · have hex : ∃ r, Loop (diskCond a) (uniform refineTri refineSeg) coarseDisk r := by
      apply loop_stops a.toNat
      have h : ¬ diskCond a (diskAt a.toNat) := by
        rw [diskCond_iff]
        have h1 : (a.toNat : ℤ) < 4 ^ a.toNat := by exact_mod_cast Nat.lt_pow_self (by norm_num)
        have h2 := Int.self_le_toNat a
        have : (0 : ℤ) < 4 ^ a.toNat := by positivity
        omega
      exact h
    obtain ⟨r, hr⟩ := hex
    refine ⟨_, ⟨r, hr, rfl⟩, ?_⟩
    rintro m ⟨r', hr', rfl⟩
    rw [loop_unique hr hr']
  · intro m h
    obtain ⟨k, rfl, h1, h2⟩ := disk_level a m h
    refine ⟨k, by simp [(disk_count k).1], by simp [(disk_count k).2], ?_, ?_, ?_⟩
    · simp only [List.length_map, (disk_count k).1]
      push_cast
      exact h1
    · intro hk
      obtain ⟨j, rfl⟩ := Nat.exists_eq_succ_of_ne_zero hk.ne'
      have := h2 j (by omega)
      simp only [List.length_map, (disk_count _).1, Nat.succ_eq_add_one, pow_succ]
      push_cast
      linarith
    · intro ha
      simp only [List.length_map, (disk_count _).1]
      have hk : k ≤ 14 := by
        by_contra hk
        have := h2 14 (by omega)
        norm_num at this ha
        omega
      calc 4 * 4 ^ k ≤ 4 * 4 ^ 14 := by gcongr; norm_num
        _ = 2 ^ 30 := by norm_num

/-- **C64, the size of a ball**: `8 · 8^k` tetrahedra and `8 · 4^k` boundary triangles, at least a quarter and, when refined, less than twice as many as requested. -/
theorem C64_ball_count (split : Tet → List Tet) (hs : Subdivides split) (a : ℤ) : (∃! m, BallMesh split a m) ∧ ∀ m, BallMesh split a m → ∃ k : ℕ,
    m.elems.length = 8 * 8 ^ k ∧ m.bdr.length = 8 * 4 ^ k ∧ a ≤ 4 * (m.elems.length : ℤ) ∧ (0 < k → (m.elems.length : ℤ) < 2 * a) ∧
    (a < 2 ^ 31 → m.elems.length ≤ 2 ^ 30) := by
  constructor
  · have hex : ∃ r, Loop (ballCond a) (uniform split refineTri) coarseBall r := by
      apply loop_stops a.toNat
      have h : ¬ ballCond a (ballAt split a.toNat) := by
        rw [ballCond_iff split hs]
        have h1 : (a.toNat : ℤ) < 8 ^ a.toNat := by exact_mod_cast Nat.lt_pow_self (by norm_num)
        have h2 := Int.self_le_toNat a
        have : (0 : ℤ) < 8 ^ a.toNat := by positivity
        omega
      exact h
    obtain ⟨r, hr⟩ := hex
    refine ⟨_, ⟨r, hr, rfl⟩, ?_⟩
    rintro m ⟨r', hr', rfl⟩
    rw [loop_unique hr hr']
  · intro m h
    obtain ⟨k, rfl, h1, h2⟩ := ball_level split hs a m h
    refine ⟨k, by simp [(ball_count split hs k).1], by simp [(ball_count split hs k).2], ?_, ?_, ?_⟩
    · simp only [List.length_map, (ball_count split hs k).1]
      push_cast
      exact h1
    · intro hk
      obtain ⟨j, rfl⟩ := Nat.exists_eq_succ_of_ne_zero hk.ne'
      have := h2 j (by omega)
      simp only [List.length_map, (ball_count split hs _).1, Nat.succ_eq_add_one, pow_succ]
      push_cast
      linarith
    · intro ha
      simp only [List.length_map, (ball_count split hs _).1]
      have hk : k ≤ 9 := by
        by_contra hk
        have := h2 9 (by omega)
        norm_num at this ha
        omega
      calc 8 * 8 ^ k ≤ 8 * 8 ^ 9 := by gcongr; norm_num
        _ = 2 ^ 30 := by norm_num

/-! ## Distances -/

theorem l2_sq {d : ℕ} (p : Pt d) : l2 p ^ 2 = ∑ i, p i ^ 2 := sq_sqrt (Finset.sum_nonneg fun _ _ => sq_nonneg _)

theorem l2_nonneg {d : ℕ} (p : Pt d) : 0 ≤ l2 p := sqrt_nonneg _

theorem l1_nonneg {d : ℕ} (p : Pt d) : 0 ≤ l1 p := Finset.sum_nonneg fun _ _ => abs_nonneg _

theorem coord_le {d : ℕ} (p : Pt d) (i : Fin d) : |p i| ≤ l2 p := by
  apply abs_le_of_sq_le_sq _ (l2_nonneg p)
  rw [l2_sq]
  exact Finset.single_le_sum (f := fun i => p i ^ 2) (fun _ _ => sq_nonneg _) (Finset.mem_univ i)

theorem l1_le {d : ℕ} (p : Pt d) : l1 p ≤ d * l2 p := by
  unfold l1
  calc ∑ i, |p i| ≤ ∑ _i : Fin d, l2 p := Finset.sum_le_sum fun i _ => coord_le p i
    _ = d * l2 p := by simp

theorem l2_scale {d : ℕ} (p : Pt d) (s : ℝ) (hs : 0 ≤ s) : l2 (fun i => p i * s) = l2 p * s := by
  unfold l2
  simp only [mul_pow]
  rw [← Finset.sum_mul, sqrt_mul (Finset.sum_nonneg fun _ _ => sq_nonneg _), sqrt_sq hs]

/-- A vertex lands at its L1 norm. -/
theorem l2_squish {d : ℕ} (p : Pt d) (h : 1 / 10 ^ 6 ≤ l2 p) : l2 (squish p) = l1 p := by
  have hp : 0 < l2 p := lt_of_lt_of_le (by norm_num) h
  unfold squish
  rw [if_neg (not_lt.2 h), l2_scale _ _ (div_nonneg (l1_nonneg p) hp.le)]
  field_simp

theorem l2_squish_le {d : ℕ} (p : Pt d) : l2 (squish p) ≤ l1 p := by
  by_cases h : l2 p < 1 / 10 ^ 6
  · have : squish p = fun _ => 0 := by
      funext i
      unfold squish
      rw [if_pos h, mul_zero]
    rw [this]
    have : l2 (fun _ : Fin d => (0 : ℝ)) = 0 := by simp [l2]
    rw [this]
    exact l1_nonneg p
  · exact (l2_squish p (not_lt.1 h)).le

theorem l1_mid {d : ℕ} (p q : Pt d) : l1 (mid p q) ≤ (l1 p + l1 q) / 2 := by
  unfold l1 mid
  rw [← Finset.sum_add_distrib, Finset.sum_div]
  apply Finset.sum_le_sum
  intro i _
  rw [abs_div, abs_two]
  gcongr
  exact abs_add_le _ _

/-- Points of one orthant at L1 distance one from the origin. -/
def Face {d : ℕ} (σ : Fin d → ℝ) (p : Pt d) : Prop := (∀ i, |p i| = σ i * p i) ∧ l1 p = 1

theorem face_mid {d : ℕ} {σ : Fin d → ℝ} (hσ : ∀ i, |σ i| = 1) {p q : Pt d} (hp : Face σ p) (hq : Face σ q) : Face σ (mid p q) := by
  have h1 : ∀ i, |mid p q i| = σ i * mid p q i := by
    intro i
    have h : 0 ≤ σ i * mid p q i := by
      unfold mid
      have a := hp.1 i
      have b := hq.1 i
      have c := abs_nonneg (p i)
      have e := abs_nonneg (q i)
      linarith
    rw [← abs_of_nonneg h, abs_mul, hσ i, one_mul]
  refine ⟨h1, ?_⟩
  unfold l1
  simp only [h1]
  have a : ∑ i, σ i * p i = 1 := by rw [← hp.2]; exact Finset.sum_congr rfl fun i _ => (hp.1 i).symm
  have b : ∑ i, σ i * q i = 1 := by rw [← hq.2]; exact Finset.sum_congr rfl fun i _ => (hq.1 i).symm
  have : ∀ i, σ i * mid p q i = (σ i * p i + σ i * q i) / 2 := fun i => by unfold mid; ring
  simp only [this]
  rw [← Finset.sum_div, Finset.sum_add_distrib, a, b]
  norm_num

theorem face_far {d : ℕ} (hd : d ≤ 3) {p : Pt d} (h : l1 p = 1) : 1 / 10 ^ 6 ≤ l2 p := by
  have h1 := l1_le p
  have h2 := l2_nonneg p
  have : (d : ℝ) ≤ 3 := by exact_mod_cast hd
  rw [h] at h1
  have : (d : ℝ) * l2 p ≤ 3 * l2 p := by gcongr
  norm_num
  linarith

/-- Iterating a refinement keeps a property of elements that subdivision keeps. -/
theorem elems_keep {E B : Type} (fe : E → List E) (fb : B → List B) (P : E → Prop) (hP : ∀ e, P e → ∀ c ∈ fe e, P c) (m : Mesh E B) (h : ∀ e ∈ m.elems, P e) (k : ℕ) :
    ∀ e ∈ ((uniform fe fb)^[k] m).elems, P e := by
  induction k with
  | zero => exact h
  | succ k ih =>
    rw [Function.iterate_succ_apply']
    intro e he
    obtain ⟨a, ha, hc⟩ := List.mem_flatMap.1 he
    exact hP a (ih a ha) e hc

theorem bdr_keep {E B : Type} (fe : E → List E) (fb : B → List B) (P : B → Prop) (hP : ∀ e, P e → ∀ c ∈ fb e, P c) (m : Mesh E B) (h : ∀ e ∈ m.bdr, P e) (k : ℕ) :
    ∀ e ∈ ((uniform fe fb)^[k] m).bdr, P e := by
  induction k with
  | zero => exact h
  | succ k ih =>
    rw [Function.iterate_succ_apply']
    intro e he
    obtain ⟨a, ha, hc⟩ := List.mem_flatMap.1 he
    exact hP a (ih a ha) e hc

/-- Boundary segment of the L1 circle. -/
def SegFace {d : ℕ} (s : Seg d) : Prop := ∃ σ : Fin d → ℝ, (∀ i, |σ i| = 1) ∧ Face σ s.p0 ∧ Face σ s.p1 ∧ s.p0 ≠ s.p1

def TriFace {d : ℕ} (s : Tri d) : Prop := ∃ σ : Fin d → ℝ, (∀ i, |σ i| = 1) ∧ Face σ s.p0 ∧ Face σ s.p1 ∧ Face σ s.p2

theorem mid_ne {d : ℕ} {p q : Pt d} (h : p ≠ q) : p ≠ mid p q ∧ mid p q ≠ q := by
  constructor
  · intro e
    apply h
    funext i
    have := congrFun e i
    unfold mid at this
    linarith
  · intro e
    apply h
    funext i
    have := congrFun e i
    unfold mid at this
    linarith

theorem disk_bdr (k : ℕ) : ∀ s ∈ (diskAt k).bdr, SegFace s := by
  refine bdr_keep refineTri refineSeg SegFace ?_ coarseDisk ?_ k
  · rintro e ⟨σ, hσ, h0, h1, hne⟩ c hc
    have hm := face_mid hσ h0 h1
    simp only [refineSeg, List.mem_cons, List.not_mem_nil, or_false] at hc
    rcases hc with rfl | rfl
    · exact ⟨σ, hσ, h0, hm, (mid_ne hne).1⟩
    · exact ⟨σ, hσ, hm, h1, (mid_ne hne).2⟩
  · intro s hs
    simp only [coarseDisk, diskSegments, List.map_cons, List.map_nil, List.mem_cons, List.not_mem_nil, or_false] at hs
    have key : ∀ (σ : Fin 2 → ℝ) (p q : Pt 2), (∀ i, |σ i| = 1) → Face σ p → Face σ q → p ≠ q → SegFace ⟨p, q⟩ := fun σ p q a b c e => ⟨σ, a, b, c, e⟩
    rcases hs with rfl | rfl | rfl | rfl
    · refine key ![1, 1] _ _ ?_ ⟨?_, ?_⟩ ⟨?_, ?_⟩ ?_ <;> simp [Fin.forall_fin_two, diskVertex, l1, Fin.sum_univ_two]
    · refine key ![-1, 1] _ _ ?_ ⟨?_, ?_⟩ ⟨?_, ?_⟩ ?_ <;> simp [Fin.forall_fin_two, diskVertex, l1, Fin.sum_univ_two]
    · refine key ![-1, -1] _ _ ?_ ⟨?_, ?_⟩ ⟨?_, ?_⟩ ?_ <;> simp [Fin.forall_fin_two, diskVertex, l1, Fin.sum_univ_two]
    · refine key ![1, -1] _ _ ?_ ⟨?_, ?_⟩ ⟨?_, ?_⟩ ?_ <;> simp [Fin.forall_fin_two, diskVertex, l1, Fin.sum_univ_two]

theorem ball_bdr (split : Tet → List Tet) (k : ℕ) : ∀ s ∈ (ballAt split k).bdr, TriFace s := by
  refine bdr_keep split refineTri TriFace ?_ coarseBall ?_ k
  · rintro e ⟨σ, hσ, h0, h1, h2⟩ c hc
    have m01 := face_mid hσ h0 h1
    have m12 := face_mid hσ h1 h2
    have m20 := face_mid hσ h2 h0
    simp only [refineTri, List.mem_cons, List.not_mem_nil, or_false] at hc
    rcases hc with rfl | rfl | rfl | rfl
    · exact ⟨σ, hσ, h0, m01, m20⟩
    · exact ⟨σ, hσ, m12, m20, m01⟩
    · exact ⟨σ, hσ, m01, h1, m12⟩
    · exact ⟨σ, hσ, m20, m12, h2⟩
  · intro s hs
    simp only [coarseBall, ballTriangles, List.map_cons, List.map_nil, List.mem_cons, List.not_mem_nil, or_false] at hs
    have key : ∀ (σ : Fin 3 → ℝ) (p q r : Pt 3), (∀ i, |σ i| = 1) → Face σ p → Face σ q → Face σ r → TriFace ⟨p, q, r⟩ := fun σ p q r a b c e => ⟨σ, a, b, c, e⟩
    rcases hs with rfl | rfl | rfl | rfl | rfl | rfl | rfl | rfl
    · refine key ![1, -1, 1] _ _ _ ?_ ⟨?_, ?_⟩ ⟨?_, ?_⟩ ⟨?_, ?_⟩ <;> simp [Fin.forall_fin_succ, ballVertex, l1, Fin.sum_univ_three]
    · refine key ![1, 1, 1] _ _ _ ?_ ⟨?_, ?_⟩ ⟨?_, ?_⟩ ⟨?_, ?_⟩ <;> simp [Fin.forall_fin_succ, ballVertex, l1, Fin.sum_univ_three]
    · refine key ![-1, 1, 1] _ _ _ ?_ ⟨?_, ?_⟩ ⟨?_, ?_⟩ ⟨?_, ?_⟩ <;> simp [Fin.forall_fin_succ, ballVertex, l1, Fin.sum_univ_three]
    · refine key ![-1, -1, 1] _ _ _ ?_ ⟨?_, ?_⟩ ⟨?_, ?_⟩ ⟨?_, ?_⟩ <;> simp [Fin.forall_fin_succ, ballVertex, l1, Fin.sum_univ_three]
    · refine key ![-1, -1, -1] _ _ _ ?_ ⟨?_, ?_⟩ ⟨?_, ?_⟩ ⟨?_, ?_⟩ <;> simp [Fin.forall_fin_succ, ballVertex, l1, Fin.sum_univ_three]
    · refine key ![1, -1, -1] _ _ _ ?_ ⟨?_, ?_⟩ ⟨?_, ?_⟩ ⟨?_, ?_⟩ <;> simp [Fin.forall_fin_succ, ballVertex, l1, Fin.sum_univ_three]
    · refine key ![-1, 1, -1] _ _ _ ?_ ⟨?_, ?_⟩ ⟨?_, ?_⟩ ⟨?_, ?_⟩ <;> simp [Fin.forall_fin_succ, ballVertex, l1, Fin.sum_univ_three]
    · refine key ![1, 1, -1] _ _ _ ?_ ⟨?_, ?_⟩ ⟨?_, ?_⟩ ⟨?_, ?_⟩ <;> simp [Fin.forall_fin_succ, ballVertex, l1, Fin.sum_univ_three]

theorem disk_inside (k : ℕ) : ∀ t ∈ (diskAt k).elems, ∀ v ∈ t.verts, l1 v ≤ 1 := by
  refine elems_keep refineTri refineSeg (fun t => ∀ v ∈ t.verts, l1 v ≤ 1) ?_ coarseDisk ?_ k
  · intro t h c hc v hv
    simp only [Tri.verts, List.mem_cons, List.not_mem_nil, or_false, forall_eq_or_imp, forall_eq] at h
    obtain ⟨h0, h1, h2⟩ := h
    have m01 : l1 (mid t.p0 t.p1) ≤ 1 := (l1_mid _ _).trans (by linarith)
    have m12 : l1 (mid t.p1 t.p2) ≤ 1 := (l1_mid _ _).trans (by linarith)
    have m20 : l1 (mid t.p2 t.p0) ≤ 1 := (l1_mid _ _).trans (by linarith)
    simp only [refineTri, List.mem_cons, List.not_mem_nil, or_false] at hc
    rcases hc with rfl | rfl | rfl | rfl <;> simp only [Tri.verts, List.mem_cons, List.not_mem_nil, or_false] at hv <;> rcases hv with rfl | rfl | rfl <;> assumption
  · intro t ht v hv
    simp only [coarseDisk, diskTriangles, List.map_cons, List.map_nil, List.mem_cons, List.not_mem_nil, or_false] at ht
    rcases ht with rfl | rfl | rfl | rfl <;> simp only [Tri.verts, List.mem_cons, List.not_mem_nil, or_false] at hv <;> rcases hv with rfl | rfl | rfl <;>
      simp [diskVertex, l1, Fin.sum_univ_two]

theorem ball_inside (split : Tet → List Tet) (hs : Subdivides split) (k : ℕ) : ∀ t ∈ (ballAt split k).elems, ∀ v ∈ t.verts, l1 v ≤ 1 := by
  refine elems_keep split refineTri (fun t => ∀ v ∈ t.verts, l1 v ≤ 1) ?_ coarseBall ?_ k
  · intro t h c hc v hv
    rcases (hs t).2 c hc v hv with h' | ⟨p, hp, q, hq, rfl⟩
    · exact h v h'
    · have := h p hp
      have := h q hq
      exact (l1_mid _ _).trans (by linarith)
  · intro t ht v hv
    simp only [coarseBall, ballTetrahedra, List.map_cons, List.map_nil, List.mem_cons, List.not_mem_nil, or_false] at ht
    rcases ht with rfl | rfl | rfl | rfl | rfl | rfl | rfl | rfl <;> simp only [Tet.verts, List.mem_cons, List.not_mem_nil, or_false] at hv <;>
      rcases hv with rfl | rfl | rfl | rfl <;> simp [ballVertex, l1, Fin.sum_univ_three]

/-- **C64, the disk lies in the unit disk and its boundary on the unit circle**: every vertex of every triangle is at distance at most one, both ends of every boundary
segment are at distance exactly one and are different points. -/
theorem C64_disk_circle (a : ℤ) (m : Mesh (Tri 2) (Seg 2)) (h : DiskMesh a m) :
    (∀ t ∈ m.elems, ∀ v ∈ t.verts, l2 v ≤ 1) ∧ ∀ s ∈ m.bdr, l2 s.p0 = 1 ∧ l2 s.p1 = 1 ∧ s.p0 ≠ s.p1 := by
  obtain ⟨k, rfl, -, -⟩ := disk_level a m h
  constructor
  · intro t ht v hv
    obtain ⟨t', ht', rfl⟩ := List.mem_map.1 ht
    simp only [Tri.verts, Tri.map, List.mem_cons, List.not_mem_nil, or_false] at hv
    have := disk_inside k t' ht'
    rcases hv with rfl | rfl | rfl <;> refine (l2_squish_le _).trans (this _ ?_) <;> simp [Tri.verts]
  · intro s hs
    obtain ⟨s', hs', rfl⟩ := List.mem_map.1 hs
    obtain ⟨σ, hσ, h0, h1, hne⟩ := disk_bdr k s' hs'
    have f0 := face_far (by norm_num) h0.2
    have f1 := face_far (by norm_num) h1.2
    refine ⟨by simp only [Seg.map]; rw [l2_squish _ f0, h0.2], by simp only [Seg.map]; rw [l2_squish _ f1, h1.2], ?_⟩
    intro e
    apply hne
    simp only [Seg.map] at e
    have p0 : 0 < l2 s'.p0 := lt_of_lt_of_le (by norm_num) f0
    have p1 : 0 < l2 s'.p1 := lt_of_lt_of_le (by norm_num) f1
    have e' : ∀ i, s'.p0 i * l2 s'.p1 = s'.p1 i * l2 s'.p0 := by
      intro i
      have := congrFun e i
      simp only [squish, if_neg (not_lt.2 f0), if_neg (not_lt.2 f1), h0.2, h1.2] at this
      field_simp at this
      rw [this, mul_comm]
    have hl : l2 s'.p1 = l2 s'.p0 := by
      have a0 : ∑ i, σ i * s'.p0 i = 1 := by rw [← h0.2]; exact Finset.sum_congr rfl fun i _ => (h0.1 i).symm
      have a1 : ∑ i, σ i * s'.p1 i = 1 := by rw [← h1.2]; exact Finset.sum_congr rfl fun i _ => (h1.1 i).symm
      have : (∑ i, σ i * s'.p0 i) * l2 s'.p1 = (∑ i, σ i * s'.p1 i) * l2 s'.p0 := by
        rw [Finset.sum_mul, Finset.sum_mul]
        refine Finset.sum_congr rfl fun i _ => ?_
        rw [mul_assoc, e' i, mul_assoc]
      rw [a0, a1, one_mul, one_mul] at this
      exact this
    funext i
    have := e' i
    rw [hl] at this
    exact mul_right_cancel₀ p0.ne' this

/-- **C64, the ball lies in the unit ball and its boundary on the unit sphere.** -/
theorem C64_ball_sphere (split : Tet → List Tet) (hs : Subdivides split) (a : ℤ) (m : Mesh Tet (Tri 3)) (h : BallMesh split a m) :
    (∀ t ∈ m.elems, ∀ v ∈ t.verts, l2 v ≤ 1) ∧ ∀ s ∈ m.bdr, ∀ v ∈ s.verts, l2 v = 1 := by
  obtain ⟨k, rfl, -, -⟩ := ball_level split hs a m h
  constructor
  · intro t ht v hv
    obtain ⟨t', ht', rfl⟩ := List.mem_map.1 ht
    simp only [Tet.verts, Tet.map, List.mem_cons, List.not_mem_nil, or_false] at hv
    have := ball_inside split hs k t' ht'
    rcases hv with rfl | rfl | rfl | rfl <;> refine (l2_squish_le _).trans (this _ ?_) <;> simp [Tet.verts]
  · intro s hs v hv
    obtain ⟨s', hs', rfl⟩ := List.mem_map.1 hs
    obtain ⟨σ, hσ, h0, h1, h2⟩ := ball_bdr split k s' hs'
    simp only [Tri.verts, Tri.map, List.mem_cons, List.not_mem_nil, or_false] at hv
    rcases hv with rfl | rfl | rfl
    · rw [l2_squish _ (face_far le_rfl h0.2), h0.2]
    · rw [l2_squish _ (face_far le_rfl h1.2), h1.2]
    · rw [l2_squish _ (face_far le_rfl h2.2), h2.2]

/-- **C64, refining afterwards does not add points of the circle** (`ser_ref_levels`, `par_ref_levels` refine the finished mesh): the midpoint of two different points of
the unit sphere is strictly inside. -/
theorem C64_later_wrong {d : ℕ} (p q : Pt d) (hp : l2 p = 1) (hq : l2 q = 1) (hne : p ≠ q) : l2 (mid p q) < 1 := by
  have h : l2 (mid p q) ^ 2 = (l2 p ^ 2 + l2 q ^ 2) / 2 - (∑ i, (p i - q i) ^ 2) / 4 := by
    rw [l2_sq, l2_sq, l2_sq, ← Finset.sum_add_distrib, Finset.sum_div, Finset.sum_div, ← Finset.sum_sub_distrib]
    refine Finset.sum_congr rfl fun i _ => ?_
    unfold mid
    ring
  have hpos : 0 < ∑ i, (p i - q i) ^ 2 := by
    obtain ⟨i, hi⟩ := Function.ne_iff.1 hne
    exact lt_of_lt_of_le (by have := sub_ne_zero.2 hi; positivity) (Finset.single_le_sum (f := fun i => (p i - q i) ^ 2) (fun _ _ => sq_nonneg _) (Finset.mem_univ i))
  rw [hp, hq] at h
  have h0 := l2_nonneg (mid p q)
  nlinarith

/-! ## Orientation -/

/-- Twice the signed area of a triangle. -/
def area2 (t : Tri 2) : ℝ := (t.p1 0 - t.p0 0) * (t.p2 1 - t.p0 1) - (t.p1 1 - t.p0 1) * (t.p2 0 - t.p0 0)

/-- Rotation by a quarter turn. -/
def turn (p : Pt 2) : Pt 2 := ![-p 1, p 0]

/-- Grid point of level `k`. -/
def lat (k i j : ℕ) : Pt 2 := ![(i : ℝ) / 2 ^ k, (j : ℝ) / 2 ^ k]

def up (k i j : ℕ) : Tri 2 := ⟨lat k (i + 1) j, lat k i (j + 1), lat k i j⟩

def down (k i j : ℕ) : Tri 2 := ⟨lat k i (j + 1), lat k (i + 1) j, lat k (i + 1) (j + 1)⟩

theorem turn_mid (p q : Pt 2) : mid (turn p) (turn q) = turn (mid p q) := by
  funext i
  fin_cases i <;> simp [mid, turn]
  ring

theorem turns_mid (r : ℕ) (p q : Pt 2) : mid (turn^[r] p) (turn^[r] q) = turn^[r] (mid p q) := by
  induction r with
  | zero => rfl
  | succ r ih => rw [Function.iterate_succ_apply', Function.iterate_succ_apply', Function.iterate_succ_apply', turn_mid, ih]

theorem turn_squish (p : Pt 2) : squish (turn p) = turn (squish p) := by
  have h1 : l1 (turn p) = l1 p := by simp [l1, turn, Fin.sum_univ_two, add_comm]
  have h2 : l2 (turn p) = l2 p := by simp [l2, turn, Fin.sum_univ_two, add_comm]
  funext i
  unfold squish
  rw [h1, h2]
  generalize (if l2 p < 1 / 10 ^ 6 then (0 : ℝ) else l1 p / l2 p) = c
  fin_cases i <;> simp [turn]

theorem turns_squish (r : ℕ) (p : Pt 2) : squish (turn^[r] p) = turn^[r] (squish p) := by
  induction r with
  | zero => rfl
  | succ r ih => rw [Function.iterate_succ_apply', Function.iterate_succ_apply', turn_squish, ih]

theorem turn_area (t : Tri 2) : area2 (t.map turn) = area2 t := by
  simp [area2, Tri.map, turn]
  ring

theorem turns_area (r : ℕ) (t : Tri 2) : area2 (t.map turn^[r]) = area2 t := by
  induction r with
  | zero => rfl
  | succ r ih =>
    rw [← ih, ← turn_area (t.map turn^[r])]
    simp only [Tri.map, Function.iterate_succ_apply']

theorem refine_turns (r : ℕ) (t : Tri 2) : refineTri (t.map turn^[r]) = (refineTri t).map (Tri.map turn^[r]) := by
  simp only [refineTri, Tri.map, turns_mid, List.map_cons, List.map_nil]

theorem mid_lat (k i j i' j' a b : ℕ) (h0 : i + i' = a) (h1 : j + j' = b) : mid (lat k i j) (lat k i' j') = lat (k + 1) a b := by
  subst h0 h1
  funext c
  fin_cases c <;> simp [mid, lat, pow_succ] <;> ring

theorem lat_double (k i j : ℕ) : lat k i j = lat (k + 1) (2 * i) (2 * j) := by
  funext c
  fin_cases c <;> simp [lat, pow_succ] <;> ring

theorem refine_up (k i j : ℕ) : refineTri (up k i j) = [up (k + 1) (2 * i + 1) (2 * j), down (k + 1) (2 * i) (2 * j), up (k + 1) (2 * i) (2 * j + 1), up (k + 1) (2 * i) (2 * j)] := by
  unfold refineTri up down
  dsimp only
  rw [mid_lat k (i + 1) j i (j + 1) (2 * i + 1) (2 * j + 1) (by omega) (by omega), mid_lat k i (j + 1) i j (2 * i) (2 * j + 1) (by omega) (by omega),
    mid_lat k i j (i + 1) j (2 * i + 1) (2 * j) (by omega) (by omega), lat_double k (i + 1) j, lat_double k i (j + 1), lat_double k i j]
  rfl

theorem refine_down (k i j : ℕ) : refineTri (down k i j) =
    [down (k + 1) (2 * i) (2 * j + 1), up (k + 1) (2 * i + 1) (2 * j + 1), down (k + 1) (2 * i + 1) (2 * j), down (k + 1) (2 * i + 1) (2 * j + 1)] := by
  unfold refineTri up down
  dsimp only
  rw [mid_lat k i (j + 1) (i + 1) j (2 * i + 1) (2 * j + 1) (by omega) (by omega), mid_lat k (i + 1) j (i + 1) (j + 1) (2 * i + 2) (2 * j + 1) (by omega) (by omega),
    mid_lat k (i + 1) (j + 1) i (j + 1) (2 * i + 1) (2 * j + 2) (by omega) (by omega), lat_double k (i + 1) j, lat_double k i (j + 1), lat_double k (i + 1) (j + 1)]
  rfl

/-- The triangles of level `k`. -/
def OnGrid (k : ℕ) (t : Tri 2) : Prop := ∃ r i j : ℕ, t = (up k i j).map turn^[r] ∨ t = (down k i j).map turn^[r]

theorem grid_refine (k : ℕ) (t : Tri 2) (h : OnGrid k t) : ∀ c ∈ refineTri t, OnGrid (k + 1) c := by
  obtain ⟨r, i, j, rfl | rfl⟩ := h <;> intro c hc <;> rw [refine_turns] at hc
  · rw [refine_up] at hc
    simp only [List.map_cons, List.map_nil, List.mem_cons, List.not_mem_nil, or_false] at hc
    rcases hc with rfl | rfl | rfl | rfl
    · exact ⟨r, _, _, .inl rfl⟩
    · exact ⟨r, _, _, .inr rfl⟩
    · exact ⟨r, _, _, .inl rfl⟩
    · exact ⟨r, _, _, .inl rfl⟩
  · rw [refine_down] at hc
    simp only [List.map_cons, List.map_nil, List.mem_cons, List.not_mem_nil, or_false] at hc
    rcases hc with rfl | rfl | rfl | rfl
    · exact ⟨r, _, _, .inr rfl⟩
    · exact ⟨r, _, _, .inl rfl⟩
    · exact ⟨r, _, _, .inr rfl⟩
    · exact ⟨r, _, _, .inr rfl⟩

theorem disk_grid (k : ℕ) : ∀ t ∈ (diskAt k).elems, OnGrid k t := by
  induction k with
  | zero =>
    intro t ht
    simp only [diskAt, Function.iterate_zero, id, coarseDisk, diskTriangles, List.map_cons, List.map_nil, List.mem_cons, List.not_mem_nil, or_false] at ht
    have h : ∀ (r : ℕ) (p q s : Pt 2), turn^[r] ![1, 0] = p → turn^[r] ![0, 1] = q → turn^[r] ![0, 0] = s → OnGrid 0 ⟨p, q, s⟩ := by
      intro r p q s hp hq hs
      refine ⟨r, 0, 0, .inl ?_⟩
      rw [← hp, ← hq, ← hs]
      simp [up, lat, Tri.map]
    rcases ht with rfl | rfl | rfl | rfl
    · apply h 0 <;> simp [diskVertex]
    · apply h 1 <;> simp [diskVertex, turn]
    · apply h 2 <;> simp [diskVertex, turn]
    · apply h 3 <;> simp [diskVertex, turn]
  | succ k ih =>
    intro t ht
    rw [diskAt, Function.iterate_succ_apply'] at ht
    obtain ⟨a, ha, hc⟩ := List.mem_flatMap.1 ht
    exact grid_refine k a (ih a ha) t hc

/-- Distance of a grid point from the origin, in grid units. -/
def nrm (i j : ℕ) : ℝ := sqrt ((i : ℝ) ^ 2 + (j : ℝ) ^ 2)

theorem nrm_sq (i j : ℕ) : nrm i j ^ 2 = (i : ℝ) ^ 2 + (j : ℝ) ^ 2 := sq_sqrt (by positivity)

theorem nrm_pos (i j : ℕ) (h : 0 < i + j) : 0 < nrm i j := by
  apply sqrt_pos.2
  rcases Nat.eq_zero_or_pos i with rfl | hi
  · have : (0 : ℝ) < j := by exact_mod_cast (by omega : 0 < j)
    positivity
  · have : (0 : ℝ) < i := by exact_mod_cast hi
    positivity

theorem one_le_nrm (i j : ℕ) (h : 0 < i + j) : 1 ≤ nrm i j := by
  apply one_le_sqrt.2
  rcases Nat.eq_zero_or_pos i with rfl | hi
  · have : (1 : ℝ) ≤ j := by exact_mod_cast (by omega : 1 ≤ j)
    nlinarith
  · have : (1 : ℝ) ≤ i := by exact_mod_cast hi
    nlinarith [sq_nonneg (j : ℝ)]

/-- Where a grid point goes, as long as the grid is not finer than `2^-19`. -/
theorem squish_lat (k i j : ℕ) (hk : k ≤ 19) : squish (lat k i j) = ![(i : ℝ) * ((i + j) / nrm i j / 2 ^ k), (j : ℝ) * ((i + j) / nrm i j / 2 ^ k)] := by
  rcases Nat.eq_zero_or_pos (i + j) with h | h
  · have hi : i = 0 := by omega
    have hj : j = 0 := by omega
    subst hi hj
    funext c
    fin_cases c <;> simp [squish, lat]
  · have hp : (0 : ℝ) < 2 ^ k := by positivity
    have h1 : l1 (lat k i j) = (i + j) / 2 ^ k := by
      simp only [l1, lat, Fin.sum_univ_two, Matrix.cons_val_zero, Matrix.cons_val_one]
      rw [abs_of_nonneg (by positivity), abs_of_nonneg (by positivity)]
      ring
    have h2 : l2 (lat k i j) = nrm i j / 2 ^ k := by
      simp only [l2, lat, Fin.sum_univ_two, Matrix.cons_val_zero, Matrix.cons_val_one, nrm]
      rw [div_pow, div_pow, ← add_div, sqrt_div (by positivity), sqrt_sq hp.le]
    have hfar : ¬ l2 (lat k i j) < 1 / 10 ^ 6 := by
      rw [h2, not_lt, div_le_div_iff₀ (by norm_num) hp, one_mul]
      have a : (2 : ℝ) ^ k ≤ 2 ^ 19 := pow_le_pow_right₀ (by norm_num) hk
      have b := one_le_nrm i j h
      norm_num at a ⊢
      linarith
    have hn := nrm_pos i j h
    unfold squish
    rw [if_neg hfar, h1, h2]
    funext c
    fin_cases c
    · simp only [lat, Fin.zero_eta, Matrix.cons_val_zero]
      field_simp
    · simp only [lat, Fin.mk_one, Matrix.cons_val_one, Matrix.cons_val_fin_one]
      field_simp

/-- The inequality behind the orientation of the triangles that point outwards. -/
theorem up_ineq (i j : ℕ) (h : 0 < i + j) : ((i : ℝ) + j) * (i * nrm (i + 1) j + j * nrm i (j + 1)) < ((i : ℝ) + j + 1) ^ 2 * nrm i j := by
  have hn := nrm_pos i j h
  have hA := nrm_sq (i + 1) j
  have hB := nrm_sq i (j + 1)
  have hC := nrm_sq i j
  have hA0 : 0 ≤ nrm (i + 1) j := sqrt_nonneg _
  have hB0 : 0 ≤ nrm i (j + 1) := sqrt_nonneg _
  have hm : (1 : ℝ) ≤ (i : ℝ) + j := by exact_mod_cast h
  have hi : (0 : ℝ) ≤ i := Nat.cast_nonneg i
  have hj : (0 : ℝ) ≤ j := Nat.cast_nonneg j
  push_cast at hA hB
  generalize nrm (i + 1) j = A at *
  generalize nrm i (j + 1) = B at *
  generalize nrm i j = C at *
  generalize (i : ℝ) = x at *
  generalize (j : ℝ) = y at *
  apply lt_of_pow_lt_pow_left₀ 2 (by positivity)
  have cs : (x * A + y * B) ^ 2 ≤ (x + y) * (x * A ^ 2 + y * B ^ 2) := by nlinarith [mul_nonneg (mul_nonneg hi hj) (sq_nonneg (A - B))]
  have e : x * A ^ 2 + y * B ^ 2 = (x + y + 2) * C ^ 2 + (x + y) := by rw [hA, hB, hC]; ring
  rw [e] at cs
  have hC2 : (x + y) ^ 2 ≤ 2 * C ^ 2 := by rw [hC]; nlinarith [sq_nonneg (x - y)]
  generalize hs : x + y = m at *
  calc (m * (x * A + y * B)) ^ 2 = m ^ 2 * (x * A + y * B) ^ 2 := by ring
    _ ≤ m ^ 2 * (m * ((m + 2) * C ^ 2 + m)) := by gcongr
    _ < ((m + 1) ^ 2 * C) ^ 2 := by
      have : ((m + 1) ^ 2 * C) ^ 2 - m ^ 2 * (m * ((m + 2) * C ^ 2 + m)) = C ^ 2 * (2 * m ^ 3 + 6 * m ^ 2 + 4 * m + 1) - m ^ 4 := by ring
      have h5 : m ^ 4 < C ^ 2 * (2 * m ^ 3 + 6 * m ^ 2 + 4 * m + 1) := by
        have p : 0 < 2 * m ^ 3 + 6 * m ^ 2 + 4 * m + 1 := by positivity
        have q : m ^ 2 * (2 * m ^ 3 + 6 * m ^ 2 + 4 * m + 1) ≤ 2 * C ^ 2 * (2 * m ^ 3 + 6 * m ^ 2 + 4 * m + 1) := by gcongr
        have r : 0 < m ^ 4 := by positivity
        have s : 0 < m ^ 5 := by positivity
        nlinarith [pow_pos (lt_of_lt_of_le one_pos hm) 3, pow_pos (lt_of_lt_of_le one_pos hm) 2]
      linarith

/-- The inequality behind the orientation of the other triangles: the triangle inequality. -/
theorem down_ineq (i j : ℕ) : ((i : ℝ) + j + 1) ^ 2 * nrm (i + 1) (j + 1) < ((i : ℝ) + j + 2) * ((i + 1) * nrm i (j + 1) + (j + 1) * nrm (i + 1) j) := by
  have hG := nrm_pos (i + 1) (j + 1) (by omega)
  have hi : (0 : ℝ) ≤ i := Nat.cast_nonneg i
  have hj : (0 : ℝ) ≤ j := Nat.cast_nonneg j
  have tri : ((i : ℝ) + j + 1) * nrm (i + 1) (j + 1) ≤ (i + 1) * nrm i (j + 1) + (j + 1) * nrm (i + 1) j := by
    have hD := nrm_sq i (j + 1)
    have hE := nrm_sq (i + 1) j
    have hGs := nrm_sq (i + 1) (j + 1)
    have hD0 : 0 ≤ nrm i (j + 1) := sqrt_nonneg _
    have hE0 : 0 ≤ nrm (i + 1) j := sqrt_nonneg _
    push_cast at hD hE hGs
    generalize nrm (i + 1) j = E at *
    generalize nrm i (j + 1) = D at *
    generalize nrm (i + 1) (j + 1) = G at *
    generalize (i : ℝ) = x at *
    generalize (j : ℝ) = y at *
    refine (pow_le_pow_iff_left₀ (by positivity) (by positivity) two_ne_zero).1 ?_
    have cs : x * (x + 1) + (y + 1) * y ≤ D * E := by
      refine (pow_le_pow_iff_left₀ (by positivity) (by positivity) two_ne_zero).1 ?_
      rw [mul_pow, hD, hE]
      nlinarith [sq_nonneg (x * y - (x + 1) * (y + 1))]
    rw [mul_pow, hGs]
    have : ((x + 1) * D + (y + 1) * E) ^ 2 = (x + 1) ^ 2 * D ^ 2 + (y + 1) ^ 2 * E ^ 2 + 2 * (x + 1) * (y + 1) * (D * E) := by ring
    rw [this, hD, hE]
    have h2 : 2 * (x + 1) * (y + 1) * (x * (x + 1) + (y + 1) * y) ≤ 2 * (x + 1) * (y + 1) * (D * E) := by gcongr
    nlinarith
  nlinarith

theorem up_area (k i j : ℕ) (hk : k ≤ 19) : 0 < area2 ((up k i j).map squish) := by
  unfold area2 up Tri.map
  dsimp only
  rw [squish_lat k _ _ hk, squish_lat k _ _ hk, squish_lat k _ _ hk]
  simp only [Matrix.cons_val_zero, Matrix.cons_val_one]
  have hp : (0 : ℝ) < 2 ^ k := by positivity
  have hA := nrm_pos (i + 1) j (by omega)
  have hB := nrm_pos i (j + 1) (by omega)
  push_cast
  rcases Nat.eq_zero_or_pos (i + j) with h | h
  · have hi : i = 0 := by omega
    have hj : j = 0 := by omega
    subst hi hj
    simp only [Nat.cast_zero]
    have : 0 < nrm (0 + 1) 0 * nrm 0 (0 + 1) * (2 ^ k) ^ 2 := by positivity
    have e : (0 * ((0 + (0 + 1)) / nrm 0 (0 + 1) / 2 ^ k) - (0 + 1) * ((0 + 1 + 0) / nrm (0 + 1) 0 / 2 ^ k)) * (0 * ((0 + 0) / nrm 0 0 / 2 ^ k) - 0 * ((0 + 1 + 0) / nrm (0 + 1) 0 / 2 ^ k)) -
        ((0 + 1) * ((0 + (0 + 1)) / nrm 0 (0 + 1) / 2 ^ k) - 0 * ((0 + 1 + 0) / nrm (0 + 1) 0 / 2 ^ k)) * (0 * ((0 + 0) / nrm 0 0 / 2 ^ k) - (0 + 1) * ((0 + 1 + 0) / nrm (0 + 1) 0 / 2 ^ k)) =
        1 / (nrm (0 + 1) 0 * nrm 0 (0 + 1) * (2 ^ k) ^ 2) := by
      field_simp
      ring
    rw [e]
    positivity
  · have hC := nrm_pos i j h
    have key := up_ineq i j h
    generalize nrm (i + 1) j = A at *
    generalize nrm i (j + 1) = B at *
    generalize nrm i j = C at *
    have hi : (0 : ℝ) ≤ i := Nat.cast_nonneg i
    have hj : (0 : ℝ) ≤ j := Nat.cast_nonneg j
    generalize (i : ℝ) = x at *
    generalize (j : ℝ) = y at *
    have e : (x * ((x + (y + 1)) / B / 2 ^ k) - (x + 1) * ((x + 1 + y) / A / 2 ^ k)) * (y * ((x + y) / C / 2 ^ k) - y * ((x + 1 + y) / A / 2 ^ k)) -
        ((y + 1) * ((x + (y + 1)) / B / 2 ^ k) - y * ((x + 1 + y) / A / 2 ^ k)) * (x * ((x + y) / C / 2 ^ k) - (x + 1) * ((x + 1 + y) / A / 2 ^ k)) =
        (x + y + 1) * ((x + y + 1) ^ 2 * C - (x + y) * (x * A + y * B)) / (A * B * C * (2 ^ k) ^ 2) := by
      field_simp
      ring
    rw [e]
    have : 0 < (x + y + 1) ^ 2 * C - (x + y) * (x * A + y * B) := by linarith
    positivity

theorem down_area (k i j : ℕ) (hk : k ≤ 19) : 0 < area2 ((down k i j).map squish) := by
  unfold area2 down Tri.map
  dsimp only
  rw [squish_lat k _ _ hk, squish_lat k _ _ hk, squish_lat k _ _ hk]
  simp only [Matrix.cons_val_zero, Matrix.cons_val_one]
  have hp : (0 : ℝ) < 2 ^ k := by positivity
  have hD := nrm_pos i (j + 1) (by omega)
  have hE := nrm_pos (i + 1) j (by omega)
  have hG := nrm_pos (i + 1) (j + 1) (by omega)
  have key := down_ineq i j
  push_cast
  generalize nrm (i + 1) j = E at *
  generalize nrm i (j + 1) = D at *
  generalize nrm (i + 1) (j + 1) = G at *
  have hi : (0 : ℝ) ≤ i := Nat.cast_nonneg i
  have hj : (0 : ℝ) ≤ j := Nat.cast_nonneg j
  generalize (i : ℝ) = x at *
  generalize (j : ℝ) = y at *
  have e : ((x + 1) * ((x + 1 + y) / E / 2 ^ k) - x * ((x + (y + 1)) / D / 2 ^ k)) * ((y + 1) * ((x + 1 + (y + 1)) / G / 2 ^ k) - (y + 1) * ((x + (y + 1)) / D / 2 ^ k)) -
      (y * ((x + 1 + y) / E / 2 ^ k) - (y + 1) * ((x + (y + 1)) / D / 2 ^ k)) * ((x + 1) * ((x + 1 + (y + 1)) / G / 2 ^ k) - x * ((x + (y + 1)) / D / 2 ^ k)) =
      (x + y + 1) * ((x + y + 2) * ((x + 1) * D + (y + 1) * E) - (x + y + 1) ^ 2 * G) / (D * E * G * (2 ^ k) ^ 2) := by
    field_simp
    ring
  rw [e]
  have : 0 < (x + y + 2) * ((x + 1) * D + (y + 1) * E) - (x + y + 1) ^ 2 * G := by linarith
  positivity

/-- **C64, the disk is not tangled**: for every 32-bit request, every triangle of the returned mesh has positive area. -/
theorem C64_disk_oriented (a : ℤ) (ha : a < 2 ^ 31) (m : Mesh (Tri 2) (Seg 2)) (h : DiskMesh a m) : ∀ t ∈ m.elems, 0 < area2 t := by
  obtain ⟨k, rfl, -, hj⟩ := disk_level a m h
  have hk : k ≤ 19 := by
    by_contra hk
    have := hj 14 (by omega)
    norm_num at this ha
    omega
  intro t ht
  obtain ⟨t', ht', rfl⟩ := List.mem_map.1 ht
  have sq : ∀ (r : ℕ) (u : Tri 2), (u.map turn^[r]).map squish = (u.map squish).map turn^[r] := fun r u => by simp only [Tri.map, turns_squish]
  obtain ⟨r, i, j, rfl | rfl⟩ := disk_grid k t' ht'
  · rw [sq, turns_area]
    exact up_area k i j hk
  · rw [sq, turns_area]
    exact down_area k i j hk

/-! ## Conformity -/

/-- Sum over the directed edges of a triangle. -/
def around {d : ℕ} {A : Type} [AddCommGroup A] (w : Pt d → Pt d → A) (t : Tri d) : A := w t.p0 t.p1 + w t.p1 t.p2 + w t.p2 t.p0

theorem around_refine {d : ℕ} {A : Type} [AddCommGroup A] (w : Pt d → Pt d → A) (hw : ∀ p q, w q p = - w p q) (t : Tri d) :
    ((refineTri t).map (around w)).sum = around (fun p q => w p (mid p q) + w (mid p q) q) t := by
  simp only [refineTri, List.map_cons, List.map_nil, List.sum_cons, List.sum_nil, around]
  rw [hw (mid t.p0 t.p1) (mid t.p2 t.p0), hw (mid t.p1 t.p2) (mid t.p0 t.p1), hw (mid t.p2 t.p0) (mid t.p1 t.p2)]
  abel

theorem sum_flatMap {α β A : Type} [AddCommGroup A] (l : List α) (f : α → List β) (g : β → A) : ((l.flatMap f).map g).sum = (l.map fun a => ((f a).map g).sum).sum := by
  induction l with
  | nil => rfl
  | cons a l ih => simp [ih]

theorem disk_cancel (k : ℕ) : ∀ {A : Type} [AddCommGroup A] (w : Pt 2 → Pt 2 → A), (∀ p q, w q p = - w p q) →
    ((diskAt k).elems.map (around w)).sum = ((diskAt k).bdr.map fun s => w s.p0 s.p1).sum := by
  induction k with
  | zero =>
    intro A _ w hw
    simp only [diskAt, Function.iterate_zero, id, coarseDisk, diskTriangles, diskSegments, List.map_cons, List.map_nil, List.sum_cons, List.sum_nil, around]
    rw [hw (diskVertex 0) (diskVertex 2), hw (diskVertex 0) (diskVertex 3), hw (diskVertex 0) (diskVertex 4), hw (diskVertex 0) (diskVertex 1)]
    abel
  | succ k ih =>
    intro A _ w hw
    have h1 : (diskAt (k + 1)).elems = (diskAt k).elems.flatMap refineTri := by rw [diskAt, Function.iterate_succ_apply']; rfl
    have h2 : (diskAt (k + 1)).bdr = (diskAt k).bdr.flatMap refineSeg := by rw [diskAt, Function.iterate_succ_apply']; rfl
    rw [h1, h2, sum_flatMap, sum_flatMap]
    simp only [around_refine w hw]
    have := ih (fun p q => w p (mid p q) + w (mid p q) q) (by
      intro p q
      have e : mid q p = mid p q := by funext i; unfold mid; ring
      rw [e, hw (mid p q) q, hw p (mid p q)]
      abel)
    rw [this]
    simp [refineSeg]

/-- **C64, the disk is conforming**: any function of directed edges that changes sign with the direction, summed over the edges of all triangles, leaves exactly its sum over
the boundary segments.  In words: inner edges belong to two triangles with opposite directions, the others are the boundary segments, traversed like in the triangles. -/
theorem C64_disk_conforming (a : ℤ) (m : Mesh (Tri 2) (Seg 2)) (h : DiskMesh a m) {A : Type} [AddCommGroup A] (w : Pt 2 → Pt 2 → A) (hw : ∀ p q, w q p = - w p q) :
    (m.elems.map (around w)).sum = (m.bdr.map fun s => w s.p0 s.p1).sum := by
  obtain ⟨k, rfl, -, -⟩ := disk_level a m h
  have := disk_cancel k (fun p q => w (squish p) (squish q)) (fun p q => hw _ _)
  simp only [List.map_map]
  exact this

/-- **C64, the area of the disk**: the areas of the triangles add up to the area of the polygon of the boundary segments. -/
theorem C64_disk_area (a : ℤ) (m : Mesh (Tri 2) (Seg 2)) (h : DiskMesh a m) :
    (m.elems.map area2).sum = (m.bdr.map fun s => s.p0 0 * s.p1 1 - s.p0 1 * s.p1 0).sum := by
  rw [← C64_disk_conforming a m h (fun p q => p 0 * q 1 - p 1 * q 0) (fun p q => by ring)]
  congr 1
  refine List.map_congr_left fun t _ => ?_
  unfold area2 around
  ring

/-! ## Cylinders -/

theorem tan_eighth : (-1 + sqrt 2) * cos (π / 8) = sin (π / 8) := by
  have hc : 0 < cos (π / 8) := cos_pos_of_mem_Ioo ⟨by linarith [pi_pos], by linarith [pi_pos]⟩
  have h1 : 2 * sin (π / 8) * cos (π / 8) = sqrt 2 / 2 := by
    rw [← sin_two_mul, ← sin_pi_div_four]
    congr 1
    ring
  have h2 : 2 * cos (π / 8) ^ 2 - 1 = sqrt 2 / 2 := by
    rw [← cos_two_mul, ← cos_pi_div_four]
    congr 1
    ring
  have h3 : sqrt 2 ^ 2 = 2 := sq_sqrt (by norm_num)
  have : ((-1 + sqrt 2) * cos (π / 8)) * cos (π / 8) = sin (π / 8) * cos (π / 8) := by nlinarith
  exact mul_right_cancel₀ hc.ne' this

/-- The deformation of the cylinder is that of a ring of eight sectors, times the radius. -/
theorem stretch_ring (R : ℝ) (p : Ring.Pt) : stretch R p = C39.smul R (Ring.stretch (π / 4) p) := by
  have hc : 0 < cos (π / 8) := cos_pos_of_mem_Ioo ⟨by linarith [pi_pos], by linarith [pi_pos]⟩
  have hf : ∀ x : ℝ, Ring.fmod (x + π) (π / 4) = Ring.fmod (x + 2 * π) (π / 4) := by
    intro x
    have h4 : (π / 4) ≠ 0 := by positivity
    unfold Ring.fmod
    have e : (x + 2 * π) / (π / 4) = (x + π) / (π / 4) + (4 : ℤ) := by
      push_cast
      field_simp
      ring
    rw [e, Int.floor_add_intCast]
    push_cast
    ring
  have hfac : ∀ φ : ℝ, cos φ + (-1 + sqrt 2) * sin φ = cos |1 / 2 * (π / 4) - φ| / cos (1 / 2 * (π / 4)) := by
    intro φ
    rw [show 1 / 2 * (π / 4) = π / 8 by ring, cos_abs, cos_sub, eq_div_iff hc.ne', ← tan_eighth]
    ring
  unfold stretch Ring.stretch C39.smul
  dsimp only
  rw [hf, hfac]
  ext <;> dsimp only <;> ring

theorem octagon_chord (i : ℕ) (hi : i < 8) : octagonEdge i = (C39.chord (π / 4) i 1 0, C39.chord (π / 4) i 1 1) := by
  have : octagon ((i + 1) % 8) = C39.chord (π / 4) i 1 1 := by
    unfold octagon C39.chord
    rcases Nat.lt_or_ge (i + 1) 8 with h | h
    · rw [Nat.mod_eq_of_lt h]
      simp
    · have : i = 7 := by omega
      subst this
      have e : π / 4 * ((7 + 1 : ℕ) : ℝ) = 2 * π := by push_cast; ring
      rw [e]
      simp
  unfold octagonEdge
  rw [this]
  unfold octagon C39.chord
  simp

/-- Part of the side `i` of the octagon. -/
def OnSide (s : Ring.Pt × Ring.Pt) : Prop :=
  ∃ i < 8, ∃ η η' : ℝ, 0 ≤ η ∧ η < η' ∧ η' ≤ 1 ∧ s = (C39.chord (π / 4) i 1 η, C39.chord (π / 4) i 1 η')

theorem halve_side (s : Ring.Pt × Ring.Pt) (h : OnSide s) : ∀ c ∈ halve s, OnSide c := by
  obtain ⟨i, hi, η, η', h0, h1, h2, rfl⟩ := h
  have hm : Ring.mid (C39.chord (π / 4) i 1 η) (C39.chord (π / 4) i 1 η') = C39.chord (π / 4) i 1 ((η + η') / 2) := by
    unfold Ring.mid C39.chord
    ext <;> dsimp only <;> ring
  intro c hc
  simp only [halve, hm, List.mem_cons, List.not_mem_nil, or_false] at hc
  rcases hc with rfl | rfl
  · exact ⟨i, hi, _, _, h0, by linarith, by linarith, rfl⟩
  · exact ⟨i, hi, _, _, by linarith, by linarith, h2, rfl⟩

theorem halveAll_side (k : ℕ) : ∀ l : List (Ring.Pt × Ring.Pt), (∀ s ∈ l, OnSide s) → ∀ s ∈ halveAll k l, OnSide s := by
  induction k with
  | zero => exact fun l h => h
  | succ k ih =>
    intro l h
    apply ih
    intro s hs
    obtain ⟨a, ha, hc⟩ := List.mem_flatMap.1 hs
    exact halve_side a (h a ha) s hc

/-- **C64, the cylinder is round**: after any number of refinements, both ends of every boundary segment of the cross section are at distance `radius` from the axis. -/
theorem C64_cylinder_round (k : ℕ) (R : ℝ) : ∀ s ∈ cylinderBoundary k R, C39.dist2 s.1 = R ^ 2 ∧ C39.dist2 s.2 = R ^ 2 := by
  have hpi := pi_pos
  have round : ∀ (i : ℕ) (η : ℝ), 0 ≤ η → η ≤ 1 → C39.dist2 (stretch R (C39.chord (π / 4) i 1 η)) = R ^ 2 := by
    intro i η h0 h1
    rw [stretch_ring, C39.C39_stretch (π / 4) (by positivity) (by linarith) 8 (by push_cast; ring) i 1 η one_pos h0 h1]
    unfold C39.dist2 C39.smul C39.dir
    dsimp only
    have := sin_sq_add_cos_sq (π / 4 * i + π / 4 / 2 + C39.psi (π / 4) η)
    linear_combination R ^ 2 * this
  intro s hs
  obtain ⟨s', hs', rfl⟩ := List.mem_map.1 hs
  obtain ⟨i, hi, η, η', h0, h1, h2, rfl⟩ := halveAll_side k _ (by
    intro s hs
    obtain ⟨i, hi, rfl⟩ := List.mem_map.1 hs
    rw [List.mem_range] at hi
    exact ⟨i, hi, 0, 1, le_rfl, one_pos, le_rfl, octagon_chord i hi⟩) s' hs'
  exact ⟨round i η h0 (by linarith), round i η' (by linarith) h2⟩

/-- The two literals of the vertex table are within `3e-16` of half the square root of two. -/
theorem C64_literals : |0.7071067811865475 - sqrt 2 / 2| ≤ 3e-16 ∧ |0.707106781186548 - sqrt 2 / 2| ≤ 5e-16 := by
  have h1 : sqrt 2 ≤ 1.41421356237309506 := sqrt_le_iff.2 ⟨by norm_num, by norm_num⟩
  have h2 : 1.41421356237309504 ≤ sqrt 2 := le_sqrt_of_sq_le (by norm_num)
  constructor <;> rw [abs_le] <;> constructor <;> linarith

/-! ## Quarter cylinders -/

/-- Partial derivative of the trilinear map of the hexahedron with corners `v i j k` in its first coordinate, at `(ξ, η, ζ)`. -/
def d0 (v : ℕ → ℕ → ℕ → Pt 3) (η ζ : ℝ) : Pt 3 := fun c =>
  (1 - η) * (1 - ζ) * (v 1 0 0 c - v 0 0 0 c) + η * (1 - ζ) * (v 1 1 0 c - v 0 1 0 c) + (1 - η) * ζ * (v 1 0 1 c - v 0 0 1 c) + η * ζ * (v 1 1 1 c - v 0 1 1 c)

def d1 (v : ℕ → ℕ → ℕ → Pt 3) (ξ ζ : ℝ) : Pt 3 := fun c =>
  (1 - ξ) * (1 - ζ) * (v 0 1 0 c - v 0 0 0 c) + ξ * (1 - ζ) * (v 1 1 0 c - v 1 0 0 c) + (1 - ξ) * ζ * (v 0 1 1 c - v 0 0 1 c) + ξ * ζ * (v 1 1 1 c - v 1 0 1 c)

def d2 (v : ℕ → ℕ → ℕ → Pt 3) (ξ η : ℝ) : Pt 3 := fun c =>
  (1 - ξ) * (1 - η) * (v 0 0 1 c - v 0 0 0 c) + ξ * (1 - η) * (v 1 0 1 c - v 1 0 0 c) + (1 - ξ) * η * (v 0 1 1 c - v 0 1 0 c) + ξ * η * (v 1 1 1 c - v 1 1 0 c)

/-- Determinant of three columns. -/
def det3 (a b c : Pt 3) : ℝ := a 0 * (b 1 * c 2 - b 2 * c 1) - b 0 * (a 1 * c 2 - a 2 * c 1) + c 0 * (a 1 * b 2 - a 2 * b 1)

/-- Jacobian determinant of the hexahedron. -/
def hexJac (v : ℕ → ℕ → ℕ → Pt 3) (ξ η ζ : ℝ) : ℝ := det3 (d0 v η ζ) (d1 v ξ ζ) (d2 v ξ η)

/-- **C64, the elements of a quarter cylinder**: the Jacobian determinant of element `(i, j, k)` at every point. -/
theorem C64_quarter_jacobian (nr na nv : ℕ) (hr : 0 < nr) (ha : 0 < na) (hv : 0 < nv) (inner outer height : ℝ) (i j k : ℕ) (ξ η ζ : ℝ) :
    hexJac (fun a b c => quarterVertex nr na nv inner outer height (i + a) (j + b) (k + c)) ξ η ζ =
      (outer - inner) / nr * (inner + (outer - inner) * ((i + ξ) / nr)) * sin (π / 2 / na) * (height / nv) := by
  have h1 : (nr : ℝ) ≠ 0 := by positivity
  have h2 : (na : ℝ) ≠ 0 := by positivity
  have h3 : (nv : ℝ) ≠ 0 := by positivity
  have hs : π / 2 / na = ((j + 1 : ℕ) : ℝ) / na * (π / 2) - (j : ℝ) / na * (π / 2) := by
    push_cast
    field_simp
    ring
  rw [hs, sin_sub]
  simp only [hexJac, det3, d0, d1, d2, quarterVertex, quarter, Matrix.cons_val_zero, Matrix.cons_val_one, Matrix.cons_val, add_zero]
  generalize cos (((j + 1 : ℕ) : ℝ) / na * (π / 2)) = c1
  generalize sin (((j + 1 : ℕ) : ℝ) / na * (π / 2)) = s1
  generalize cos ((j : ℝ) / na * (π / 2)) = c0
  generalize sin ((j : ℝ) / na * (π / 2)) = s0
  push_cast
  field_simp
  ring

/-- **C64, a quarter cylinder is not tangled** when `0 ≤ inner < outer` and the height is positive: the determinant is positive at all points off the axis. -/
theorem C64_quarter_oriented_partial (nr na nv : ℕ) (hr : 0 < nr) (ha : 0 < na) (hv : 0 < nv) (inner outer height : ℝ) (h0 : 0 ≤ inner) (h1 : inner < outer) (hh : 0 < height)
    (i j k : ℕ) (ξ η ζ : ℝ) (hξ : 0 ≤ ξ) (hoff : 0 < inner ∨ 0 < ξ) :
    0 < hexJac (fun a b c => quarterVertex nr na nv inner outer height (i + a) (j + b) (k + c)) ξ η ζ := by
  rw [C64_quarter_jacobian nr na nv hr ha hv]
  have hnr : (0 : ℝ) < nr := by exact_mod_cast hr
  have hna : (1 : ℝ) ≤ na := by exact_mod_cast ha
  have hnv : (0 : ℝ) < nv := by exact_mod_cast hv
  have hd : 0 < outer - inner := sub_pos.2 h1
  have hpi := pi_pos
  have hsin : 0 < sin (π / 2 / na) := by
    apply sin_pos_of_pos_of_lt_pi (by positivity)
    rw [div_lt_iff₀ (by positivity)]
    nlinarith
  have hrad : 0 < inner + (outer - inner) * ((i + ξ) / nr) := by
    rcases hoff with h | h
    · positivity
    · positivity
  positivity

/-- **C64, where the vertices of a quarter cylinder are**: between the two radii, in the first quadrant, between the two planes; the first and last ones on them. -/
theorem C64_quarter_place (nr na nv : ℕ) (hr : 0 < nr) (ha : 0 < na) (hv : 0 < nv) (inner outer height : ℝ) (h0 : 0 ≤ inner) (h1 : inner ≤ outer) (hh : 0 ≤ height)
    (i j k : ℕ) (hi : i ≤ nr) (hj : j ≤ na) (hk : k ≤ nv) (v : Pt 3) (e : v = quarterVertex nr na nv inner outer height i j k) :
    inner ^ 2 ≤ v 0 ^ 2 + v 1 ^ 2 ∧ v 0 ^ 2 + v 1 ^ 2 ≤ outer ^ 2 ∧ 0 ≤ v 0 ∧ 0 ≤ v 1 ∧ 0 ≤ v 2 ∧ v 2 ≤ height ∧ (i = 0 → v 0 ^ 2 + v 1 ^ 2 = inner ^ 2) ∧
      (i = nr → v 0 ^ 2 + v 1 ^ 2 = outer ^ 2) ∧ (j = 0 → v 1 = 0) ∧ (j = na → v 0 = 0) ∧ (k = 0 → v 2 = 0) ∧ (k = nv → v 2 = height) := by
  have hnr : (0 : ℝ) < nr := by exact_mod_cast hr
  have hna : (0 : ℝ) < na := by exact_mod_cast ha
  have hnv : (0 : ℝ) < nv := by exact_mod_cast hv
  have bi : (i : ℝ) / nr ≤ 1 := (div_le_one hnr).2 (by exact_mod_cast hi)
  have bj : (j : ℝ) / na ≤ 1 := (div_le_one hna).2 (by exact_mod_cast hj)
  have bk : (k : ℝ) / nv ≤ 1 := (div_le_one hnv).2 (by exact_mod_cast hk)
  have ci : 0 ≤ (i : ℝ) / nr := by positivity
  have cj : 0 ≤ (j : ℝ) / na := by positivity
  have ck : 0 ≤ (k : ℝ) / nv := by positivity
  have hpi := pi_pos
  have e0 : v 0 = (inner + (outer - inner) * (i / nr)) * cos (j / na * (π / 2)) := by rw [e]; simp [quarterVertex, quarter]
  have e1 : v 1 = (inner + (outer - inner) * (i / nr)) * sin (j / na * (π / 2)) := by rw [e]; simp [quarterVertex, quarter]
  have e2 : v 2 = k / nv * height := by rw [e]; simp [quarterVertex, quarter]
  have hr2 : v 0 ^ 2 + v 1 ^ 2 = (inner + (outer - inner) * (i / nr)) ^ 2 := by
    rw [e0, e1]
    linear_combination (inner + (outer - inner) * (i / nr)) ^ 2 * sin_sq_add_cos_sq ((j : ℝ) / na * (π / 2))
  have hd : 0 ≤ outer - inner := sub_nonneg.2 h1
  have r0 : inner ≤ inner + (outer - inner) * (i / nr) := by nlinarith
  have r1 : inner + (outer - inner) * (i / nr) ≤ outer := by nlinarith
  have hc : 0 ≤ cos ((j : ℝ) / na * (π / 2)) := cos_nonneg_of_mem_Icc ⟨by nlinarith, by nlinarith⟩
  have hs : 0 ≤ sin ((j : ℝ) / na * (π / 2)) := sin_nonneg_of_nonneg_of_le_pi (by nlinarith) (by nlinarith)
  refine ⟨?_, ?_, ?_, ?_, ?_, ?_, ?_, ?_, ?_, ?_, ?_, ?_⟩
  · rw [hr2]; exact pow_le_pow_left₀ h0 r0 2
  · rw [hr2]; exact pow_le_pow_left₀ (h0.trans r0) r1 2
  · rw [e0]; exact mul_nonneg (by linarith) hc
  · rw [e1]; exact mul_nonneg (by linarith) hs
  · rw [e2]; positivity
  · rw [e2]; exact mul_le_of_le_one_left hh bk
  · rintro rfl; rw [hr2]; simp
  · rintro rfl; rw [hr2, div_self hnr.ne']; ring
  · rintro rfl; rw [e1]; simp
  · rintro rfl; rw [e0, div_self hna.ne']; simp
  · rintro rfl; rw [e2]; simp
  · rintro rfl; rw [e2, div_self hnv.ne']; ring

/-- **C64, radii are not compared**: with the two radii exchanged every element of the quarter cylinder is inverted, and with equal radii it is flat (`buildRing` stops with an
error in both cases). -/
theorem C64_quarter_wrong (nr na nv : ℕ) (hr : 0 < nr) (ha : 0 < na) (hv : 0 < nv) (inner outer height : ℝ) (h0 : 0 < outer) (h1 : outer ≤ inner) (hh : 0 < height)
    (i j k : ℕ) (hi : i < nr) (ξ η ζ : ℝ) (hξ : 0 ≤ ξ) (hξ1 : ξ ≤ 1) :
    hexJac (fun a b c => quarterVertex nr na nv inner outer height (i + a) (j + b) (k + c)) ξ η ζ ≤ 0 ∧
      (outer < inner → hexJac (fun a b c => quarterVertex nr na nv inner outer height (i + a) (j + b) (k + c)) ξ η ζ < 0) := by
  rw [C64_quarter_jacobian nr na nv hr ha hv]
  have hnr : (0 : ℝ) < nr := by exact_mod_cast hr
  have hna : (1 : ℝ) ≤ na := by exact_mod_cast ha
  have hnv : (0 : ℝ) < nv := by exact_mod_cast hv
  have hpi := pi_pos
  have hsin : 0 < sin (π / 2 / na) := by
    apply sin_pos_of_pos_of_lt_pi (by positivity)
    rw [div_lt_iff₀ (by positivity)]
    nlinarith
  have hfrac : (i + ξ) / nr ≤ 1 := by
    rw [div_le_one hnr]
    have : ((i : ℝ) + 1) ≤ nr := by exact_mod_cast hi
    linarith
  have hfrac0 : 0 ≤ (i + ξ) / nr := by positivity
  have hrad : 0 < inner + (outer - inner) * ((i + ξ) / nr) := by nlinarith
  have hz : 0 < height / nv := by positivity
  have hpos : 0 < (inner + (outer - inner) * ((i + ξ) / nr)) * sin (π / 2 / na) * (height / nv) := by positivity
  have e : (outer - inner) / nr * (inner + (outer - inner) * ((i + ξ) / nr)) * sin (π / 2 / na) * (height / nv) =
      (outer - inner) / nr * ((inner + (outer - inner) * ((i + ξ) / nr)) * sin (π / 2 / na) * (height / nv)) := by ring
  rw [e]
  constructor
  · exact mul_nonpos_of_nonpos_of_nonneg (div_nonpos_of_nonpos_of_nonneg (by linarith) hnr.le) hpos.le
  · intro h
    exact mul_neg_of_neg_of_pos (div_neg_of_neg_of_pos (by linarith) hnr) hpos

/-! ## Conformity of the ball -/

/-- A function of three points that changes sign when two are exchanged. -/
structure Alternating {d : ℕ} {A : Type} [AddCommGroup A] (w : Pt d → Pt d → Pt d → A) : Prop where
  s1 : ∀ p q r, w q p r = - w p q r
  s2 : ∀ p q r, w p r q = - w p q r

namespace Alternating
variable {d : ℕ} {A : Type} [AddCommGroup A] {w : Pt d → Pt d → Pt d → A} (h : Alternating w)
include h
theorem c1 (p q r : Pt d) : w q r p = w p q r := by rw [h.s2 q p r, h.s1 p q r, neg_neg]
theorem c2 (p q r : Pt d) : w r p q = w p q r := by rw [h.s1 p r q, h.s2 p q r, neg_neg]
theorem s3 (p q r : Pt d) : w r q p = - w p q r := by rw [h.s1 q r p, h.c1 p q r]
end Alternating

/-- Sum over the four faces of a tetrahedron, seen from outside. -/
def faces {A : Type} [AddCommGroup A] (w : Pt 3 → Pt 3 → Pt 3 → A) (t : Tet) : A := w t.p1 t.p2 t.p3 + w t.p0 t.p3 t.p2 + w t.p0 t.p1 t.p3 + w t.p0 t.p2 t.p1

/-- Sum over the four parts of a refined triangle. -/
def parts {d : ℕ} {A : Type} [AddCommGroup A] (w : Pt d → Pt d → Pt d → A) (p q r : Pt d) : A :=
  w p (mid p q) (mid r p) + w (mid q r) (mid r p) (mid p q) + w (mid p q) q (mid q r) + w (mid r p) (mid q r) r

theorem mid_comm {d : ℕ} (p q : Pt d) : mid p q = mid q p := by
  funext i
  unfold mid
  ring

theorem parts_alternating {d : ℕ} {A : Type} [AddCommGroup A] {w : Pt d → Pt d → Pt d → A} (h : Alternating w) : Alternating (parts w) := by
  constructor
  · intro p q r
    unfold parts
    rw [mid_comm q p, mid_comm p r, mid_comm r q, h.s1 (mid p q) q (mid q r), h.s1 (mid q r) (mid r p) (mid p q), h.s1 p (mid p q) (mid r p), h.s1 (mid r p) (mid q r) r]
    abel
  · intro p q r
    unfold parts
    rw [mid_comm p r, mid_comm r q, mid_comm q p, h.s2 p (mid p q) (mid r p), h.s2 (mid q r) (mid r p) (mid p q), h.s2 (mid r p) (mid q r) r, h.s2 (mid p q) q (mid q r)]
    abel

theorem faces_split0 {A : Type} [AddCommGroup A] {w : Pt 3 → Pt 3 → Pt 3 → A} (h : Alternating w) (v0 v1 v2 v3 e0 e1 e2 e3 e4 e5 : Pt 3) :
    (w e0 e1 e2 + w v0 e2 e1 + w v0 e0 e2 + w v0 e1 e0) + (w v1 e3 e4 + w e0 e4 e3 + w e0 v1 e4 + w e0 e3 v1) + (w e3 v2 e5 + w e1 e5 v2 + w e1 e3 e5 + w e1 v2 e3) + (w e4 e5 v3 + w e2 v3 e5 + w e2 e4 v3 + w e2 e5 e4) + (w e5 e1 e2 + w e0 e2 e1 + w e0 e5 e2 + w e0 e1 e5) + (w e5 e2 e4 + w e0 e4 e2 + w e0 e5 e4 + w e0 e2 e5) + (w e5 e4 e3 + w e0 e3 e4 + w e0 e5 e3 + w e0 e4 e5) + (w e5 e3 e1 + w e0 e1 e3 + w e0 e5 e1 + w e0 e3 e5) =
    (w v1 e3 e4 + w e5 e4 e3 + w e3 v2 e5 + w e4 e5 v3) + (w v0 e2 e1 + w e5 e1 e2 + w e2 v3 e5 + w e1 e5 v2) + (w v0 e0 e2 + w e4 e2 e0 + w e0 v1 e4 + w e2 e4 v3) + (w v0 e1 e0 + w e3 e0 e1 + w e1 v2 e3 + w e0 e3 v1) := by
  rw [h.s2 v0 e1 e2, h.s2 v0 e0 e1, h.s2 e0 e3 e4, h.s1 v1 e0 e4, h.c1 v1 e0 e3, h.s1 v2 e3 e5, h.c1 v2 e1 e5, h.s1 v2 e1 e3, h.c1 v3 e4 e5, h.s1 v3 e2 e5, h.c1 v3 e2 e4, h.s2 e2 e4 e5, h.c2 e1 e2 e5, h.s2 e0 e1 e2, h.s2 e0 e2 e5, h.c2 e2 e4 e5, h.s2 e0 e2 e4, h.s2 e0 e4 e5, h.s3 e3 e4 e5, h.s2 e0 e3 e5, h.s3 e1 e3 e5, h.s2 e0 e1 e5, h.s3 e0 e2 e4, h.c2 e0 e1 e3]
  abel

theorem faces_split1 {A : Type} [AddCommGroup A] {w : Pt 3 → Pt 3 → Pt 3 → A} (h : Alternating w) (v0 v1 v2 v3 e0 e1 e2 e3 e4 e5 : Pt 3) :
    (w e0 e1 e2 + w v0 e2 e1 + w v0 e0 e2 + w v0 e1 e0) + (w v1 e3 e4 + w e0 e4 e3 + w e0 v1 e4 + w e0 e3 v1) + (w e3 v2 e5 + w e1 e5 v2 + w e1 e3 e5 + w e1 v2 e3) + (w e4 e5 v3 + w e2 v3 e5 + w e2 e4 v3 + w e2 e5 e4) + (w e0 e4 e2 + w e1 e2 e4 + w e1 e0 e2 + w e1 e4 e0) + (w e2 e4 e5 + w e1 e5 e4 + w e1 e2 e5 + w e1 e4 e2) + (w e5 e4 e3 + w e1 e3 e4 + w e1 e5 e3 + w e1 e4 e5) + (w e3 e4 e0 + w e1 e0 e4 + w e1 e3 e0 + w e1 e4 e3) =
    (w v1 e3 e4 + w e5 e4 e3 + w e3 v2 e5 + w e4 e5 v3) + (w v0 e2 e1 + w e5 e1 e2 + w e2 v3 e5 + w e1 e5 v2) + (w v0 e0 e2 + w e4 e2 e0 + w e0 v1 e4 + w e2 e4 v3) + (w v0 e1 e0 + w e3 e0 e1 + w e1 v2 e3 + w e0 e3 v1) := by
  rw [h.s2 v0 e1 e2, h.s2 v0 e0 e1, h.s2 e0 e3 e4, h.s1 v1 e0 e4, h.c1 v1 e0 e3, h.s1 v2 e3 e5, h.c1 v2 e1 e5, h.s1 v2 e1 e3, h.c1 v3 e4 e5, h.s1 v3 e2 e5, h.c1 v3 e2 e4, h.s2 e2 e4 e5, h.s2 e0 e2 e4, h.s1 e0 e1 e2, h.c1 e0 e1 e4, h.s2 e1 e4 e5, h.s2 e1 e2 e4, h.s3 e3 e4 e5, h.s2 e1 e3 e5, h.c1 e0 e3 e4, h.s1 e0 e1 e4, h.c1 e0 e1 e3, h.s2 e1 e3 e4, h.c2 e1 e2 e5, h.s3 e0 e2 e4, h.c2 e0 e1 e3]
  abel

theorem faces_split2 {A : Type} [AddCommGroup A] {w : Pt 3 → Pt 3 → Pt 3 → A} (h : Alternating w) (v0 v1 v2 v3 e0 e1 e2 e3 e4 e5 : Pt 3) :
    (w e0 e1 e2 + w v0 e2 e1 + w v0 e0 e2 + w v0 e1 e0) + (w v1 e3 e4 + w e0 e4 e3 + w e0 v1 e4 + w e0 e3 v1) + (w e3 v2 e5 + w e1 e5 v2 + w e1 e3 e5 + w e1 v2 e3) + (w e4 e5 v3 + w e2 v3 e5 + w e2 e4 v3 + w e2 e5 e4) + (w e0 e1 e3 + w e2 e3 e1 + w e2 e0 e3 + w e2 e1 e0) + (w e1 e5 e3 + w e2 e3 e5 + w e2 e1 e3 + w e2 e5 e1) + (w e5 e4 e3 + w e2 e3 e4 + w e2 e5 e3 + w e2 e4 e5) + (w e4 e0 e3 + w e2 e3 e0 + w e2 e4 e3 + w e2 e0 e4) =
    (w v1 e3 e4 + w e5 e4 e3 + w e3 v2 e5 + w e4 e5 v3) + (w v0 e2 e1 + w e5 e1 e2 + w e2 v3 e5 + w e1 e5 v2) + (w v0 e0 e2 + w e4 e2 e0 + w e0 v1 e4 + w e2 e4 v3) + (w v0 e1 e0 + w e3 e0 e1 + w e1 v2 e3 + w e0 e3 v1) := by
  rw [h.s2 v0 e1 e2, h.s2 v0 e0 e1, h.s2 e0 e3 e4, h.s1 v1 e0 e4, h.c1 v1 e0 e3, h.s1 v2 e3 e5, h.c1 v2 e1 e5, h.s1 v2 e1 e3, h.c1 v3 e4 e5, h.s1 v3 e2 e5, h.c1 v3 e2 e4, h.s2 e2 e4 e5, h.c1 e1 e2 e3, h.s1 e0 e2 e3, h.s3 e0 e1 e2, h.s2 e1 e3 e5, h.s1 e1 e2 e3, h.c1 e1 e2 e5, h.s3 e3 e4 e5, h.s2 e2 e3 e5, h.c2 e0 e3 e4, h.c1 e0 e2 e3, h.s2 e2 e3 e4, h.s1 e0 e2 e4, h.c2 e1 e2 e5, h.s3 e0 e2 e4, h.c2 e0 e1 e3]
  abel

theorem faces_refine {A : Type} [AddCommGroup A] {w : Pt 3 → Pt 3 → Pt 3 → A} (h : Alternating w) (rt : Fin 3) (t : Tet) :
    ((tetSplit rt t).map (faces w)).sum = faces (parts w) t := by
  have m1 := mid_comm t.p3 t.p2
  have m2 := mid_comm t.p2 t.p1
  have m3 := mid_comm t.p3 t.p1
  have m4 := mid_comm t.p1 t.p0
  have m5 := mid_comm t.p2 t.p0
  have m6 := mid_comm t.p3 t.p0
  have e : ∀ L : List Tet, (L.map (faces w)).sum = (L.map fun t => w t.p1 t.p2 t.p3 + w t.p0 t.p3 t.p2 + w t.p0 t.p1 t.p3 + w t.p0 t.p2 t.p1).sum := fun _ => rfl
  rw [e]
  fin_cases rt
  · have := faces_split0 h t.p0 t.p1 t.p2 t.p3 (mid t.p0 t.p1) (mid t.p0 t.p2) (mid t.p0 t.p3) (mid t.p1 t.p2) (mid t.p1 t.p3) (mid t.p2 t.p3)
    simp only [faces, parts, m1, m2, m3, m4, m5, m6]
    rw [← this]
    simp [tetSplit, octahedron]
    abel
  · have := faces_split1 h t.p0 t.p1 t.p2 t.p3 (mid t.p0 t.p1) (mid t.p0 t.p2) (mid t.p0 t.p3) (mid t.p1 t.p2) (mid t.p1 t.p3) (mid t.p2 t.p3)
    simp only [faces, parts, m1, m2, m3, m4, m5, m6]
    rw [← this]
    simp [tetSplit, octahedron]
    abel
  · have := faces_split2 h t.p0 t.p1 t.p2 t.p3 (mid t.p0 t.p1) (mid t.p0 t.p2) (mid t.p0 t.p3) (mid t.p1 t.p2) (mid t.p1 t.p3) (mid t.p2 t.p3)
    simp only [faces, parts, m1, m2, m3, m4, m5, m6]
    rw [← this]
    simp [tetSplit, octahedron]
    abel

/-- Any choice of diagonals is a subdivision as assumed above. -/
theorem subdivides (choice : Tet → Fin 3) : Subdivides fun t => tetSplit (choice t) t := by
  intro t
  change (tetSplit (choice t) t).length = 8 ∧ ∀ c ∈ tetSplit (choice t) t, ∀ v ∈ c.verts, v ∈ t.verts ∨ ∃ p ∈ t.verts, ∃ q ∈ t.verts, v = mid p q
  generalize choice t = rt
  have key : ∀ c ∈ tetSplit rt t, ∀ v ∈ c.verts, v ∈ t.verts ∨ ∃ p ∈ t.verts, ∃ q ∈ t.verts, v = mid p q := by
    have e0 : ∃ p ∈ t.verts, ∃ q ∈ t.verts, mid t.p0 t.p1 = mid p q := ⟨t.p0, by simp [Tet.verts], t.p1, by simp [Tet.verts], rfl⟩
    have e1 : ∃ p ∈ t.verts, ∃ q ∈ t.verts, mid t.p0 t.p2 = mid p q := ⟨t.p0, by simp [Tet.verts], t.p2, by simp [Tet.verts], rfl⟩
    have e2 : ∃ p ∈ t.verts, ∃ q ∈ t.verts, mid t.p0 t.p3 = mid p q := ⟨t.p0, by simp [Tet.verts], t.p3, by simp [Tet.verts], rfl⟩
    have e3 : ∃ p ∈ t.verts, ∃ q ∈ t.verts, mid t.p1 t.p2 = mid p q := ⟨t.p1, by simp [Tet.verts], t.p2, by simp [Tet.verts], rfl⟩
    have e4 : ∃ p ∈ t.verts, ∃ q ∈ t.verts, mid t.p1 t.p3 = mid p q := ⟨t.p1, by simp [Tet.verts], t.p3, by simp [Tet.verts], rfl⟩
    have e5 : ∃ p ∈ t.verts, ∃ q ∈ t.verts, mid t.p2 t.p3 = mid p q := ⟨t.p2, by simp [Tet.verts], t.p3, by simp [Tet.verts], rfl⟩
    have v0 : t.p0 ∈ t.verts := by simp [Tet.verts]
    have v1 : t.p1 ∈ t.verts := by simp [Tet.verts]
    have v2 : t.p2 ∈ t.verts := by simp [Tet.verts]
    have v3 : t.p3 ∈ t.verts := by simp [Tet.verts]
    intro c hc
    fin_cases rt <;> simp [tetSplit, octahedron] at hc <;> rcases hc with rfl | rfl | rfl | rfl | rfl | rfl | rfl | rfl <;>
      simp only [Tet.verts, List.mem_cons, List.not_mem_nil, or_false, forall_eq_or_imp, forall_eq] at * <;> simp [*]
  exact ⟨by fin_cases rt <;> simp [tetSplit, octahedron], key⟩

/-- Six times the signed volume of a tetrahedron. -/
def volume6 (t : Tet) : ℝ := det3 (fun c => t.p1 c - t.p0 c) (fun c => t.p2 c - t.p0 c) (fun c => t.p3 c - t.p0 c)

/-- **C64, the ball before its vertices are moved**: all tetrahedra of all levels have the same positive volume `1 / 8^k`, whichever diagonals are chosen. -/
theorem C64_ball_volume_partial (choice : Tet → Fin 3) (k : ℕ) : ∀ t ∈ (ballAt (fun t => tetSplit (choice t) t) k).elems, volume6 t = 1 / 8 ^ k := by
  induction k with
  | zero =>
    intro t ht
    simp only [ballAt, Function.iterate_zero, id, coarseBall, ballTetrahedra, List.map_cons, List.map_nil, List.mem_cons, List.not_mem_nil, or_false] at ht
    rcases ht with rfl | rfl | rfl | rfl | rfl | rfl | rfl | rfl <;> simp [volume6, det3, ballVertex]
  | succ k ih =>
    intro c hc
    rw [ballAt, Function.iterate_succ_apply'] at hc
    obtain ⟨t, ht, hc⟩ := List.mem_flatMap.1 hc
    have h := ih t ht
    have : volume6 c = volume6 t / 8 := by
      generalize choice t = rt at hc
      fin_cases rt <;> simp [tetSplit, octahedron] at hc <;> rcases hc with rfl | rfl | rfl | rfl | rfl | rfl | rfl | rfl <;>
        simp only [volume6, det3, mid] <;> ring
    rw [this, h, pow_succ]
    field_simp

theorem ball_cancel (choice : Tet → Fin 3) (k : ℕ) : ∀ {A : Type} [AddCommGroup A] (w : Pt 3 → Pt 3 → Pt 3 → A), Alternating w →
    ((ballAt (fun t => tetSplit (choice t) t) k).elems.map (faces w)).sum = ((ballAt (fun t => tetSplit (choice t) t) k).bdr.map fun s => w s.p0 s.p1 s.p2).sum := by
  induction k with
  | zero =>
    intro A _ w h
    simp only [ballAt, Function.iterate_zero, id, coarseBall, ballTetrahedra, ballTriangles, List.map_cons, List.map_nil, List.sum_cons, List.sum_nil, faces]
    generalize ballVertex 0 = b0
    generalize ballVertex 1 = b1
    generalize ballVertex 2 = b2
    generalize ballVertex 3 = b3
    generalize ballVertex 4 = b4
    generalize ballVertex 5 = b5
    generalize ballVertex 6 = b6
    simp only [h.s2 b0 b5 b6, h.s2 b0 b4 b5, h.c1 b2 b4 b6, h.s2 b0 b2 b4, h.s2 b0 b4 b6, h.s3 b1 b2 b4, h.s2 b0 b1 b4, h.s1 b1 b4 b5, h.s2 b0 b1 b5, h.c2 b1 b3 b5, h.s2 b0 b1 b3, h.s2 b0 b3 b5, h.s1 b3 b5 b6, h.s2 b0 b3 b6, h.c2 b1 b2 b3, h.s2 b0 b1 b2, h.s2 b0 b2 b3, h.s3 b2 b3 b6, h.s2 b0 b2 b6]
    abel
  | succ k ih =>
    intro A _ w h
    have h1 : (ballAt (fun t => tetSplit (choice t) t) (k + 1)).elems = (ballAt (fun t => tetSplit (choice t) t) k).elems.flatMap (fun t => tetSplit (choice t) t) := by
      rw [ballAt, Function.iterate_succ_apply']; rfl
    have h2 : (ballAt (fun t => tetSplit (choice t) t) (k + 1)).bdr = (ballAt (fun t => tetSplit (choice t) t) k).bdr.flatMap refineTri := by
      rw [ballAt, Function.iterate_succ_apply']; rfl
    rw [h1, h2, sum_flatMap, sum_flatMap]
    simp only [faces_refine h]
    rw [ih (parts w) (parts_alternating h)]
    simp only [refineTri, parts, List.map_cons, List.map_nil, List.sum_cons, List.sum_nil, add_zero, add_assoc]

/-- **C64, the ball is conforming**: inner faces cancel, the boundary triangles with their orientation are what is left. -/
theorem C64_ball_conforming (choice : Tet → Fin 3) (a : ℤ) (m : Mesh Tet (Tri 3)) (h : BallMesh (fun t => tetSplit (choice t) t) a m) {A : Type} [AddCommGroup A]
    (w : Pt 3 → Pt 3 → Pt 3 → A) (hw : Alternating w) : (m.elems.map (faces w)).sum = (m.bdr.map fun s => w s.p0 s.p1 s.p2).sum := by
  obtain ⟨k, rfl, -, -⟩ := ball_level _ (subdivides choice) a m h
  have := ball_cancel choice k (fun p q r => w (squish p) (squish q) (squish r)) ⟨fun p q r => hw.s1 _ _ _, fun p q r => hw.s2 _ _ _⟩
  simp only [List.map_map]
  exact this

/-- **C64, the volume of the ball**: the signed volumes of the tetrahedra add up to that of the cones from the centre to the boundary triangles. -/
theorem C64_ball_volume (choice : Tet → Fin 3) (a : ℤ) (m : Mesh Tet (Tri 3)) (h : BallMesh (fun t => tetSplit (choice t) t) a m) :
    (m.elems.map volume6).sum = (m.bdr.map fun s => det3 s.p0 s.p1 s.p2).sum := by
  rw [← C64_ball_conforming choice a m h (fun p q r => det3 p q r) ⟨fun p q r => by unfold det3; ring, fun p q r => by unfold det3; ring⟩]
  congr 1
  refine List.map_congr_left fun t _ => ?_
  unfold volume6 faces det3
  ring

/-! ## Examples -/

/-- A request for a hundred triangles gives 64. -/
example : ∃ m, DiskMesh 100 m ∧ m.elems.length = 64 ∧ m.bdr.length = 16 := by
  obtain ⟨⟨m, hm, -⟩, h⟩ := C64_disk_count 100
  obtain ⟨k, h1, h2, h3, h4, -⟩ := h m hm
  have hk : k = 2 := by
    have hk3 : k < 3 := by
      by_contra hk
      have h5 := h4 (by omega)
      have : 4 ^ 3 ≤ 4 ^ k := Nat.pow_le_pow_right (by norm_num) (by omega)
      rw [h1] at h5
      push_cast at h5
      have : (4 : ℤ) ^ 3 ≤ 4 ^ k := by exact_mod_cast this
      norm_num at this
      omega
    interval_cases k
    · norm_num [h1] at h3
    · norm_num [h1] at h3
    · rfl
  subst hk
  exact ⟨m, hm, by rw [h1]; norm_num, by rw [h2]; norm_num⟩

/-- A request for a thousand tetrahedra gives 512. -/
example (choice : Tet → Fin 3) : ∃ m, BallMesh (fun t => tetSplit (choice t) t) 1000 m ∧ m.elems.length = 512 := by
  obtain ⟨⟨m, hm, -⟩, h⟩ := C64_ball_count _ (subdivides choice) 1000
  obtain ⟨k, h1, h2, h3, h4, -⟩ := h m hm
  have hk : k = 2 := by
    have hk3 : k < 3 := by
      by_contra hk
      have h5 := h4 (by omega)
      have : 8 ^ 3 ≤ 8 ^ k := Nat.pow_le_pow_right (by norm_num) (by omega)
      rw [h1] at h5
      push_cast at h5
      have : (8 : ℤ) ^ 3 ≤ 8 ^ k := by exact_mod_cast this
      norm_num at this
      omega
    interval_cases k
    · norm_num [h1] at h3
    · norm_num [h1] at h3
    · rfl
  subst hk
  exact ⟨m, hm, by rw [h1]; norm_num⟩

example : ∀ η ζ : ℝ, 0 < hexJac (fun a b c => quarterVertex 4 8 2 1 2 3 (0 + a) (1 + b) (0 + c)) 0 η ζ := fun η ζ =>
  C64_quarter_oriented_partial 4 8 2 (by norm_num) (by norm_num) (by norm_num) 1 2 3 (by norm_num) (by norm_num) (by norm_num) 0 1 0 0 η ζ le_rfl (.inl one_pos)

example : ∀ η ζ : ℝ, hexJac (fun a b c => quarterVertex 4 8 2 2 1 3 (0 + a) (1 + b) (0 + c)) 0 η ζ < 0 := fun η ζ =>
  (C64_quarter_wrong 4 8 2 (by norm_num) (by norm_num) (by norm_num) 2 1 3 (by norm_num) (by norm_num) (by norm_num) 0 1 0 (by norm_num) 0 η ζ le_rfl (by norm_num)).2 (by norm_num)

example : l2 (mid (![1, 0] : Pt 2) ![0, 1]) < 1 :=
  C64_later_wrong _ _ (by simp [l2, Fin.sum_univ_two]) (by simp [l2, Fin.sum_univ_two]) (by simp)

end Serac.C64
