import Verif.Model.NodeIds
import Mathlib.Tactic.Ring
import Mathlib.Tactic.Linarith
import Mathlib.Data.ZMod.Basic
import Mathlib.Algebra.Ring.Int.Parity
/-! Helper lemmas about the node numbering formulas. -/

namespace Serac

theorem two_mul_half (p y : Int) : 2 * ((3 + 2 * p - y) * y).tdiv 2 = (3 + 2 * p - y) * y := by
  apply Int.mul_tdiv_cancel'
  obtain ⟨k, hk | hk⟩ := Int.even_or_odd' y
  · exact ⟨(3 + 2 * p - y) * k, by rw [hk]; ring⟩
  · exact ⟨(1 + p - k) * y, by rw [hk]; ring⟩

theorem two_mul_triId (p x y : Int) : 2 * triId p x y = 2 * x + (3 + 2 * p - y) * y := by
  have := two_mul_half p y
  unfold triId; linarith

theorem two_mul_triCount (p : Int) : 2 * ((p + 1) * (p + 2) / 2) = (p + 1) * (p + 2) := by
  apply Int.mul_ediv_cancel'
  obtain ⟨k, hk | hk⟩ := Int.even_or_odd' p
  · exact ⟨(p + 1) * (k + 1), by rw [hk]; ring⟩
  · exact ⟨(k + 1) * (p + 2), by rw [hk]; ring⟩

private theorem six_dvd_aux : ∀ z p : ZMod 6,
    z * (11 + p * (12 + 3 * p) + z * (z - 6 - 3 * p)) = 0 := by decide

theorem six_dvd_layer (z p : Int) : (6 : Int) ∣ z * (11 + p * (12 + 3 * p) + z * (z - 6 - 3 * p)) := by
  have h := six_dvd_aux (z : ZMod 6) (p : ZMod 6)
  have : ((z * (11 + p * (12 + 3 * p) + z * (z - 6 - 3 * p)) : Int) : ZMod 6) = 0 := by
    push_cast; exact h
  exact (ZMod.intCast_zmod_eq_zero_iff_dvd _ 6).mp this

/-- Start of layer `z` in a tetrahedron of order `p`. -/
def tetLayer (p z : Int) : Int := z * (11 + p * (12 + 3 * p) + z * (z - 6 - 3 * p)) / 6

theorem six_mul_tetLayer (p z : Int) :
    6 * tetLayer p z = z * (11 + p * (12 + 3 * p) + z * (z - 6 - 3 * p)) :=
  Int.mul_ediv_cancel' (six_dvd_layer z p)

theorem tetId_eq (p x y z : Int) : tetId p x y z = tetLayer p z + triId (p - z) x y := by
  have h1 := six_mul_tetLayer p z
  have h2 := two_mul_triId (p - z) x y
  have key : z * (11 + p * (12 + 3 * p) - 6 * y + z * (z - 6 - 3 * p)) - 3 * y * (y - 2 * p - 3)
      = 6 * (tetLayer p z + triId (p - z) x y - x) := by
    have : 6 * (tetLayer p z + triId (p - z) x y - x)
        = 6 * tetLayer p z + 3 * (2 * triId (p - z) x y) - 6 * x := by ring
    rw [this, h1, h2]; ring
  unfold tetId
  rw [key, Int.mul_tdiv_cancel_left _ (by norm_num)]
  ring

theorem tetLayer_zero (p : Int) : tetLayer p 0 = 0 := by simp [tetLayer]

theorem tetLayer_succ (p z : Int) :
    tetLayer p (z + 1) = tetLayer p z + (p - z + 1) * (p - z + 2) / 2 := by
  have h1 := six_mul_tetLayer p z
  have h2 := six_mul_tetLayer p (z + 1)
  have h3 := two_mul_triCount (p - z)
  have : 6 * tetLayer p (z + 1) = 6 * (tetLayer p z + (p - z + 1) * (p - z + 2) / 2) := by
    have e : 6 * (tetLayer p z + (p - z + 1) * (p - z + 2) / 2)
      = 6 * tetLayer p z + 3 * (2 * ((p - z + 1) * (p - z + 2) / 2)) := by ring
    rw [e, h1, h2, h3]; ring
  linarith

/-- number of nodes of a tetrahedron -/
theorem tetLayer_top (p : Int) : tetLayer p (p + 1) = (p + 1) * (p + 2) * (p + 3) / 6 := by
  unfold tetLayer; congr 1; ring

/-- A value below the end of consecutive blocks lies in one of them. -/
theorem exists_block (f : Nat → Int) (n : Int) (h0 : f 0 ≤ n) :
    ∀ k : Nat, n < f k → ∃ m, m < k ∧ f m ≤ n ∧ n < f (m + 1)
  | 0, h => absurd h (by omega)
  | k + 1, h => by
    by_cases hk : n < f k
    · obtain ⟨m, hm, h1, h2⟩ := exists_block f n h0 k hk
      exact ⟨m, by omega, h1, h2⟩
    · exact ⟨k, by omega, by omega, h⟩

theorem triId_lt_of_row_lt {p x y x' y' : Int} (h0 : x + y ≤ p) (hx' : 0 ≤ x') (hy : y < y') (hy' : y' ≤ p) :
    triId p x y < triId p x' y' := by
  have h1 := two_mul_triId p x y
  have h2 := two_mul_triId p x' y'
  nlinarith [mul_nonneg (show 0 ≤ y' - y - 1 by omega) (show 0 ≤ 2 * (p - y) - (y' - y) + 2 by omega)]

theorem triId_lt_iff {p x y x' y' : Int} (hx : 0 ≤ x) (h : x + y ≤ p)
    (hx' : 0 ≤ x') (h' : x' + y' ≤ p) :
    triId p x y < triId p x' y' ↔ y < y' ∨ (y = y' ∧ x < x') := by
  constructor
  · intro hlt
    rcases lt_trichotomy y y' with h1 | h1 | h1
    · exact Or.inl h1
    · refine Or.inr ⟨h1, ?_⟩
      subst h1
      have := two_mul_triId p x y; have := two_mul_triId p x' y; omega
    · have := triId_lt_of_row_lt (p := p) (x := x') (x' := x) h' hx h1 (by omega)
      omega
  · rintro (h1 | ⟨rfl, h1⟩)
    · exact triId_lt_of_row_lt h hx' h1 (by omega)
    · have := two_mul_triId p x y; have := two_mul_triId p x' y; omega

theorem triId_range {p x y : Int} (hx : 0 ≤ x) (hy : 0 ≤ y) (h : x + y ≤ p) :
    0 ≤ triId p x y ∧ triId p x y < (p + 1) * (p + 2) / 2 := by
  have h1 := two_mul_triId p x y
  have h2 := two_mul_triCount p
  constructor
  · nlinarith [mul_nonneg (show 0 ≤ 3 + 2 * p - y by omega) hy]
  · nlinarith [mul_nonneg (show 0 ≤ p - y by omega) (show 0 ≤ p - y + 1 by omega)]

theorem triId_surj {p n : Int} (hn : 0 ≤ n) (hn' : n < (p + 1) * (p + 2) / 2) (hp : 0 ≤ p) :
    ∃ x y, 0 ≤ x ∧ 0 ≤ y ∧ x + y ≤ p ∧ triId p x y = n := by
  obtain ⟨m, hm, h1, h2⟩ := exists_block (fun y => triId p 0 (y : Int)) n
    (by have := two_mul_triId p 0 0; push_cast; omega) (p + 1).toNat (by
      have e : (((p + 1).toNat : Nat) : Int) = p + 1 := by omega
      have a := two_mul_triId p 0 (p + 1)
      have b := two_mul_triCount p
      have c : 2 * triId p 0 (p + 1) = (p + 1) * (p + 2) := by rw [a]; ring
      rw [e]; omega)
  refine ⟨n - triId p 0 m, m, by omega, by omega, ?_, ?_⟩
  · have a := two_mul_triId p 0 m
    have b := two_mul_triId p 0 ((m : Int) + 1)
    have c : 2 * triId p 0 ((m : Int) + 1) = 2 * triId p 0 m + 2 * (p - m + 1) := by rw [a, b]; ring
    push_cast at h2
    omega
  · unfold triId; ring

theorem triId_inj {p x y x' y' : Int} (hx : 0 ≤ x) (h : x + y ≤ p)
    (hx' : 0 ≤ x') (h' : x' + y' ≤ p) (e : triId p x y = triId p x' y') : x = x' ∧ y = y' := by
  rcases lt_trichotomy y y' with h1 | h1 | h1
  · have := (triId_lt_iff hx h hx' h').mpr (Or.inl h1); omega
  · subst h1
    have := two_mul_triId p x y; have := two_mul_triId p x' y; omega
  · have := (triId_lt_iff hx' h' hx h).mpr (Or.inl h1); omega

theorem triCount_nonneg {q : Int} (hq : -1 ≤ q) : 0 ≤ (q + 1) * (q + 2) / 2 := by
  have := two_mul_triCount q
  nlinarith [mul_nonneg (show 0 ≤ q + 1 by omega) (show 0 ≤ q + 2 by omega)]

theorem tetLayer_mono {p : Int} : ∀ (d : Nat) (z : Int), z + d ≤ p + 1 → tetLayer p z ≤ tetLayer p (z + d)
  | 0, z, _ => by simp
  | d + 1, z, h => by
    have h1 := tetLayer_mono (p := p) d z (by push_cast at h; omega)
    have h2 := tetLayer_succ p (z + d)
    have h3 := triCount_nonneg (q := p - (z + d)) (by push_cast at h; omega)
    have : z + ((d + 1 : Nat) : Int) = z + d + 1 := by push_cast; ring
    rw [this, h2]; omega

theorem tetLayer_le {p z z' : Int} (h : z ≤ z') (h' : z' ≤ p + 1) : tetLayer p z ≤ tetLayer p z' := by
  have := tetLayer_mono (p := p) (z' - z).toNat z (by omega)
  have e : z + ((z' - z).toNat : Int) = z' := by omega
  rwa [e] at this

theorem tetId_block {p x y z : Int} (hx : 0 ≤ x) (hy : 0 ≤ y) (h : x + y + z ≤ p) :
    tetLayer p z ≤ tetId p x y z ∧ tetId p x y z < tetLayer p (z + 1) := by
  have h1 := triId_range (p := p - z) hx hy (by omega)
  rw [tetId_eq, tetLayer_succ]; omega

theorem tetId_lt_iff {p x y z x' y' z' : Int} (hx : 0 ≤ x) (hy : 0 ≤ y) (h : x + y + z ≤ p)
    (hx' : 0 ≤ x') (hy' : 0 ≤ y') (h' : x' + y' + z' ≤ p) :
    tetId p x y z < tetId p x' y' z' ↔ z < z' ∨ (z = z' ∧ (y < y' ∨ (y = y' ∧ x < x'))) := by
  rcases lt_trichotomy z z' with h1 | h1 | h1
  · have a := tetId_block hx hy h
    have b := tetId_block hx' hy' h'
    have c := tetLayer_le (p := p) (z := z + 1) (z' := z') (by omega) (by omega)
    constructor
    · intro; exact Or.inl h1
    · intro; omega
  · subst h1
    rw [tetId_eq, tetId_eq]
    have := triId_lt_iff (p := p - z) (y := y) (y' := y') hx (by omega) hx' (by omega)
    constructor
    · intro hh; exact Or.inr ⟨rfl, this.mp (by omega)⟩
    · rintro (hh | ⟨-, hh⟩)
      · omega
      · have := this.mpr hh; omega
  · have a := tetId_block hx hy h
    have b := tetId_block hx' hy' h'
    have c := tetLayer_le (p := p) (z := z' + 1) (z' := z) (by omega) (by omega)
    constructor
    · intro; omega
    · rintro (hh | ⟨hh, -⟩) <;> omega

theorem tetId_inj {p x y z x' y' z' : Int} (hx : 0 ≤ x) (hy : 0 ≤ y) (h : x + y + z ≤ p)
    (hx' : 0 ≤ x') (hy' : 0 ≤ y') (h' : x' + y' + z' ≤ p) (e : tetId p x y z = tetId p x' y' z') :
    x = x' ∧ y = y' ∧ z = z' := by
  have a := (tetId_lt_iff hx hy h hx' hy' h').not.mp (by omega)
  have b := (tetId_lt_iff hx' hy' h' hx hy h).not.mp (by omega)
  omega

theorem tetId_surj {p n : Int} (hn : 0 ≤ n) (hn' : n < (p + 1) * (p + 2) * (p + 3) / 6) (hp : 0 ≤ p) :
    ∃ x y z, 0 ≤ x ∧ 0 ≤ y ∧ 0 ≤ z ∧ x + y + z ≤ p ∧ tetId p x y z = n := by
  obtain ⟨m, hm, h1, h2⟩ := exists_block (fun z => tetLayer p (z : Int)) n
    (by simpa [tetLayer_zero] using hn) (p + 1).toNat (by
      have e : (((p + 1).toNat : Nat) : Int) = p + 1 := by omega
      rw [e, tetLayer_top]; exact hn')
  push_cast at h2
  rw [tetLayer_succ] at h2
  obtain ⟨x, y, hx, hy, hxy, e⟩ := triId_surj (p := p - m) (n := n - tetLayer p m) (by omega) (by omega) (by omega)
  exact ⟨x, y, m, hx, hy, by omega, by omega, by rw [tetId_eq, e]; ring⟩

theorem tetId_range {p x y z : Int} (hx : 0 ≤ x) (hy : 0 ≤ y) (hz : 0 ≤ z) (h : x + y + z ≤ p) :
    0 ≤ tetId p x y z ∧ tetId p x y z < (p + 1) * (p + 2) * (p + 3) / 6 := by
  have a := tetId_block hx hy h
  have b := tetLayer_le (p := p) (z := 0) (z' := z) hz (by omega)
  have c := tetLayer_le (p := p) (z := z + 1) (z' := p + 1) (by omega) (by omega)
  rw [tetLayer_zero] at b; rw [tetLayer_top] at c
  omega

theorem mixed_radix_lt_iff {w x y x' y' : Int} (hx : 0 ≤ x) (hxw : x < w) (hx' : 0 ≤ x') (hxw' : x' < w) :
    w * y + x < w * y' + x' ↔ y < y' ∨ (y = y' ∧ x < x') := by
  constructor
  · intro h
    rcases lt_trichotomy y y' with h1 | h1 | h1
    · exact Or.inl h1
    · subst h1; exact Or.inr ⟨rfl, by omega⟩
    · exfalso; nlinarith
  · rintro (h1 | ⟨rfl, h1⟩)
    · nlinarith
    · omega

theorem quadId_lt_iff {p x y x' y' : Int} (hx : 0 ≤ x) (hxp : x ≤ p) (hx' : 0 ≤ x') (hxp' : x' ≤ p) :
    quadId p x y < quadId p x' y' ↔ y < y' ∨ (y = y' ∧ x < x') :=
  mixed_radix_lt_iff (w := p + 1) hx (by omega) hx' (by omega)

theorem quadId_range {p x y : Int} (hx : 0 ≤ x) (hxp : x ≤ p) (hy : 0 ≤ y) (hyp : y ≤ p) :
    0 ≤ quadId p x y ∧ quadId p x y < (p + 1) * (p + 1) := by
  unfold quadId
  constructor
  · have := mul_nonneg (show 0 ≤ p + 1 by omega) hy; omega
  · nlinarith [mul_nonneg (show 0 ≤ p + 1 by omega) (show 0 ≤ p - y by omega)]

theorem quadId_inj {p x y x' y' : Int} (hx : 0 ≤ x) (hxp : x ≤ p) (hx' : 0 ≤ x') (hxp' : x' ≤ p)
    (e : quadId p x y = quadId p x' y') : x = x' ∧ y = y' := by
  have a := (quadId_lt_iff (y := y) (y' := y') hx hxp hx' hxp').not.mp (by omega)
  have b := (quadId_lt_iff (y := y') (y' := y) hx' hxp' hx hxp).not.mp (by omega)
  omega

theorem quadId_surj {p n : Int} (hp : 0 ≤ p) (hn : 0 ≤ n) (hn' : n < (p + 1) * (p + 1)) :
    ∃ x y, 0 ≤ x ∧ x ≤ p ∧ 0 ≤ y ∧ y ≤ p ∧ quadId p x y = n := by
  have hw : 0 < p + 1 := by omega
  refine ⟨n % (p + 1), n / (p + 1), Int.emod_nonneg _ (by omega), ?_, Int.ediv_nonneg hn (by omega), ?_, ?_⟩
  · have := Int.emod_lt_of_pos n hw; omega
  · have := Int.ediv_lt_of_lt_mul hw hn'; omega
  · unfold quadId; have := Int.emod_add_mul_ediv n (p + 1); omega

theorem hexId_eq (p x y z : Int) : hexId p x y z = (p + 1) * quadId p y z + x := rfl

theorem hexId_lt_iff {p x y z x' y' z' : Int} (hx : 0 ≤ x) (hxp : x ≤ p) (hx' : 0 ≤ x') (hxp' : x' ≤ p)
    (hy : 0 ≤ y) (hyp : y ≤ p) (hy' : 0 ≤ y') (hyp' : y' ≤ p) :
    hexId p x y z < hexId p x' y' z' ↔ z < z' ∨ (z = z' ∧ (y < y' ∨ (y = y' ∧ x < x'))) := by
  rw [hexId_eq, hexId_eq, mixed_radix_lt_iff hx (by omega) hx' (by omega),
    quadId_lt_iff hy hyp hy' hyp']
  constructor
  · rintro ((h | ⟨h1, h2⟩) | ⟨h, h3⟩)
    · exact Or.inl h
    · exact Or.inr ⟨h1, Or.inl h2⟩
    · have := quadId_inj hy hyp hy' hyp' h
      exact Or.inr ⟨this.2, Or.inr ⟨this.1, h3⟩⟩
  · rintro (h | ⟨rfl, h | ⟨rfl, h⟩⟩)
    · exact Or.inl (Or.inl h)
    · exact Or.inl (Or.inr ⟨rfl, h⟩)
    · exact Or.inr ⟨rfl, h⟩

theorem hexId_inj {p x y z x' y' z' : Int} (hx : 0 ≤ x) (hxp : x ≤ p) (hx' : 0 ≤ x') (hxp' : x' ≤ p)
    (hy : 0 ≤ y) (hyp : y ≤ p) (hy' : 0 ≤ y') (hyp' : y' ≤ p)
    (e : hexId p x y z = hexId p x' y' z') : x = x' ∧ y = y' ∧ z = z' := by
  have a := (hexId_lt_iff (z := z) (z' := z') hx hxp hx' hxp' hy hyp hy' hyp').not.mp (by omega)
  have b := (hexId_lt_iff (z := z') (z' := z) hx' hxp' hx hxp hy' hyp' hy hyp).not.mp (by omega)
  omega

theorem hexId_range {p x y z : Int} (hx : 0 ≤ x) (hxp : x ≤ p) (hy : 0 ≤ y) (hyp : y ≤ p)
    (hz : 0 ≤ z) (hzp : z ≤ p) : 0 ≤ hexId p x y z ∧ hexId p x y z < (p + 1) * (p + 1) * (p + 1) := by
  have h := quadId_range hy hyp hz hzp
  rw [hexId_eq]
  have := mul_nonneg (show 0 ≤ p + 1 by omega) h.1
  constructor
  · omega
  · nlinarith [mul_nonneg (show 0 ≤ p + 1 by omega) (show 0 ≤ (p + 1) * (p + 1) - 1 - quadId p y z by omega)]

theorem hexId_surj {p n : Int} (hp : 0 ≤ p) (hn : 0 ≤ n) (hn' : n < (p + 1) * (p + 1) * (p + 1)) :
    ∃ x y z, (0 ≤ x ∧ x ≤ p) ∧ (0 ≤ y ∧ y ≤ p) ∧ (0 ≤ z ∧ z ≤ p) ∧ hexId p x y z = n := by
  have hw : 0 < p + 1 := by omega
  obtain ⟨y, z, hy, hyp, hz, hzp, e⟩ := quadId_surj (p := p) (n := n / (p + 1)) hp
    (Int.ediv_nonneg hn (by omega)) (Int.ediv_lt_of_lt_mul hw hn')
  refine ⟨n % (p + 1), y, z, ⟨Int.emod_nonneg _ (by omega), ?_⟩, ⟨hy, hyp⟩, ⟨hz, hzp⟩, ?_⟩
  · have := Int.emod_lt_of_pos n hw; omega
  · rw [hexId_eq, e]; have := Int.emod_add_mul_ediv n (p + 1); omega

end Serac
