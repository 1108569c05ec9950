import Verif.Model.MaterialInput
import Mathlib.Data.Fin.VecNotation
import Mathlib.Data.Fintype.Fin
import Mathlib.Tactic.FinCases
/-!
# C47: materials in an input file

A material that can be written in an input file is read back exactly; a table that is read has no entry that is silently ignored; everything else is
refused, and nothing is undefined.
-/

namespace Serac.C47
open Serac.MaterialInput

variable {T : Type}

/-! ## How a material is written -/

/-- The table for a hardening law.  Linear hardening has no spelling. -/
def writeHard : Hard T → Option (HardTable T)
  | .linear _ _ => none
  | .powerLaw s n e => some ⟨"PowerLawHardening", .number s, .number n, .number e, .absent, .absent⟩
  | .voce s t c => some ⟨"VoceHardening", .number s, .absent, .absent, .number t, .number c⟩

/-- The table for a solid material. -/
def writeSolid : Solid T → Option (SolidTable T)
  | .neoHookean d k g => some ⟨"NeoHookean", .number d, .number g, .number k, .absent, .absent, .absent, none⟩
  | .linearIsotropic d k g => some ⟨"LinearIsotropic", .number d, .number g, .number k, .absent, .absent, .absent, none⟩
  | .j2 e v h hk d => (writeHard h).map fun t => ⟨"J2SmallStrain", .number d, .absent, .absent, .number e, .number v, .number hk, some t⟩

/-- The table for a conductor: rows of the matrix. -/
def writeThermal : Thermal T → ThermalTable T
  | .isotropic d p k => ⟨"LinearIsotropicConductor", .number d, .number p, .number k, none, none⟩
  | .conductor2 d p k => ⟨"LinearConductor", .number d, .number p, .absent, some 2, some (some [k 0 0, k 0 1], some [k 1 0, k 1 1], none)⟩
  | .conductor3 d p k => ⟨"LinearConductor", .number d, .number p, .absent, some 3,
      some (some [k 0 0, k 0 1, k 0 2], some [k 1 0, k 1 1, k 1 2], some [k 2 0, k 2 1, k 2 2])⟩

/-! ## Reading back -/

theorem C47_solid_round_trip (m : Solid T) (t : SolidTable T) (h : writeSolid m = some t) : t.read = .ok m := by
  cases m with
  | neoHookean d k g => cases h; simp [SolidTable.read, SolidTable.verify, SolidTable.decode, Entry.present, Entry.get, Res.bind]
  | linearIsotropic d k g => cases h; simp [SolidTable.read, SolidTable.verify, SolidTable.decode, Entry.present, Entry.get, Res.bind]
  | j2 e v hd hk d =>
    cases hd <;> cases h <;>
      simp [SolidTable.read, SolidTable.verify, SolidTable.decode, HardTable.verify, HardTable.decode, Entry.present, Entry.get, Res.bind]

theorem C47_thermal_round_trip (m : Thermal T) : (writeThermal m).read = .ok m := by
  cases m with
  | isotropic d p k => simp [writeThermal, ThermalTable.read, ThermalTable.verify, ThermalTable.decode, Entry.present, Entry.get, Res.bind]
  | conductor2 d p k =>
    simp [writeThermal, ThermalTable.read, ThermalTable.verify, ThermalTable.decode, Entry.present, Entry.get, Res.bind, at']
    funext i j
    fin_cases i <;> fin_cases j <;> rfl
  | conductor3 d p k =>
    simp [writeThermal, ThermalTable.read, ThermalTable.verify, ThermalTable.decode, Entry.present, Entry.get, Res.bind, at']
    funext i j
    fin_cases i <;> fin_cases j <;> rfl

/-- Two materials with the same table are the same. -/
theorem C47_injective (m m' : Solid T) (h : writeSolid m = writeSolid m') (hs : (writeSolid m).isSome) : m = m' := by
  obtain ⟨t, ht⟩ := Option.isSome_iff_exists.1 hs
  have h1 := C47_solid_round_trip m t ht
  have h2 := C47_solid_round_trip m' t (h ▸ ht)
  rw [h1] at h2
  cases h2
  rfl

/-! ## Nothing is ignored, with two exceptions -/

/-- As numbers go, two entries agree (an entry of another type counts as absent for the verifier). -/
def Same (a b : Entry T) : Prop := ∀ x, a = .number x ↔ b = .number x

private theorem getok {e : Entry T} {x : T} (h : e.get = .ok x) : e = .number x := by
  cases e <;> simp [Entry.get] at h
  rw [h]

private theorem bindok {α β : Type} {r : Res α} {f : α → Res β} {b : β} (h : r.bind f = .ok b) : ∃ a, r = .ok a ∧ f a = .ok b := by
  cases r with
  | ok a => exact ⟨a, rfl, h⟩
  | refused => cases h
  | undefined => cases h

private theorem absent_same {e : Entry T} (h : e.present = false) : Same e .absent := by
  intro x
  cases e <;> simp [Entry.present] at h ⊢

private theorem same_refl (e : Entry T) : Same e e := fun _ => Iff.rfl

/-- What is claimed of a table that was read: every number in it is accounted for by the material, so that the table is the written form of the material. -/
def NothingIgnored (t : SolidTable T) (m : Solid T) : Prop :=
  ∃ w, writeSolid m = some w ∧ t.model = w.model ∧ Same t.density w.density ∧ Same t.mu w.mu ∧ Same t.K w.K ∧ Same t.E w.E ∧ Same t.nu w.nu ∧
    Same t.Hk w.Hk ∧ (t.hardening.isSome = w.hardening.isSome) ∧
    ∀ a b, t.hardening = some a → w.hardening = some b → a.law = b.law ∧ Same a.sigma_y b.sigma_y ∧ Same a.n b.n ∧ Same a.eps0 b.eps0 ∧
      Same a.sigma_sat b.sigma_sat ∧ Same a.strain_constant b.strain_constant

/-- Missing: `Hk` beside an elastic model, and `strain_constant` in a power law, are ignored.  Without them nothing is. -/
theorem C47_nothing_ignored_partial (t : SolidTable T) (m : Solid T) (h : t.read = .ok m)
    (hHk : t.model = "J2SmallStrain" ∨ t.Hk.present = false)
    (hsc : ∀ a, t.hardening = some a → a.law = "VoceHardening" ∨ a.strain_constant.present = false) : NothingIgnored t m := by
  unfold SolidTable.read at h
  split_ifs at h with hv
  unfold SolidTable.verify at hv
  unfold SolidTable.decode at h
  obtain ⟨model, density, mu, K, E, nu, Hk, hardening⟩ := t
  dsimp only at *
  split_ifs at h with h1 h2 h3
  · subst h1
    obtain ⟨d, hd, h⟩ := bindok h
    obtain ⟨k, hk, h⟩ := bindok h
    obtain ⟨g, hg, h⟩ := bindok h
    cases h
    simp at hv hHk
    obtain ⟨_, ⟨⟨_, hE⟩, hnu⟩, hh⟩ := hv
    subst hh
    exact ⟨_, rfl, rfl, getok hd ▸ same_refl _, getok hg ▸ same_refl _, getok hk ▸ same_refl _, absent_same hE, absent_same hnu, absent_same hHk, rfl,
      fun a b ha => by cases ha⟩
  · subst h2
    obtain ⟨d, hd, h⟩ := bindok h
    obtain ⟨k, hk, h⟩ := bindok h
    obtain ⟨g, hg, h⟩ := bindok h
    cases h
    simp at hv hHk
    obtain ⟨_, ⟨⟨_, hE⟩, hnu⟩, hh⟩ := hv
    subst hh
    exact ⟨_, rfl, rfl, getok hd ▸ same_refl _, getok hg ▸ same_refl _, getok hk ▸ same_refl _, absent_same hE, absent_same hnu, absent_same hHk, rfl,
      fun a b ha => by cases ha⟩
  · subst h3
    cases hardening with
    | none => cases h
    | some a =>
      dsimp only at h
      obtain ⟨hl, hhl, h⟩ := bindok h
      obtain ⟨e, he, h⟩ := bindok h
      obtain ⟨v, hv', h⟩ := bindok h
      obtain ⟨hk, hhk, h⟩ := bindok h
      obtain ⟨d, hd, h⟩ := bindok h
      cases h
      simp at hv
      obtain ⟨hav, ⟨⟨⟨⟨_, hmu⟩, hK⟩, _⟩, _⟩, _⟩ := hv
      have hsc := hsc a rfl
      obtain ⟨law, sy, n, e0, ss, sc⟩ := a
      unfold HardTable.decode at hhl
      unfold HardTable.verify at hav
      dsimp only at *
      split_ifs at hhl with l1 l2
      · subst l1
        obtain ⟨x, hx, hhl⟩ := bindok hhl
        obtain ⟨y, hy, hhl⟩ := bindok hhl
        obtain ⟨z, hz, hhl⟩ := bindok hhl
        cases hhl
        simp at hav hsc
        refine ⟨_, rfl, rfl, getok hd ▸ same_refl _, absent_same hmu, absent_same hK, getok he ▸ same_refl _, getok hv' ▸ same_refl _,
          getok hhk ▸ same_refl _, rfl, ?_⟩
        intro a b ha hb
        cases ha; cases hb
        exact ⟨rfl, getok hx ▸ same_refl _, getok hy ▸ same_refl _, getok hz ▸ same_refl _, absent_same hav.2, absent_same hsc⟩
      · subst l2
        obtain ⟨x, hx, hhl⟩ := bindok hhl
        obtain ⟨y, hy, hhl⟩ := bindok hhl
        obtain ⟨z, hz, hhl⟩ := bindok hhl
        cases hhl
        simp at hav
        refine ⟨_, rfl, rfl, getok hd ▸ same_refl _, absent_same hmu, absent_same hK, getok he ▸ same_refl _, getok hv' ▸ same_refl _,
          getok hhk ▸ same_refl _, rfl, ?_⟩
        intro a b ha hb
        cases ha; cases hb
        exact ⟨rfl, getok hx ▸ same_refl _, absent_same hav.1.1.1.2, absent_same hav.1.1.2, getok hy ▸ same_refl _, getok hz ▸ same_refl _⟩

/-- Any kinematic hardening constant beside an elastic model is dropped without a word. -/
theorem C47_Hk_wrong (d g k hk : T) :
    (⟨"NeoHookean", .number d, .number g, .number k, .absent, .absent, .number hk, none⟩ : SolidTable T).read = .ok (.neoHookean d k g) := by
  simp [SolidTable.read, SolidTable.verify, SolidTable.decode, Entry.present, Entry.get, Res.bind]

/-- A power law accepts a Voce constant, which is dropped: the verifier tests `sigma_sat` twice. -/
theorem C47_strain_constant_wrong (d e v hk s n e0 c : T) :
    (⟨"J2SmallStrain", .number d, .absent, .absent, .number e, .number v, .number hk,
      some ⟨"PowerLawHardening", .number s, .number n, .number e0, .absent, .number c⟩⟩ : SolidTable T).read =
        .ok (.j2 e v (.powerLaw s n e0) hk d) := by
  simp [SolidTable.read, SolidTable.verify, SolidTable.decode, HardTable.verify, HardTable.decode, Entry.present, Entry.get, Res.bind]

/-- Linear hardening, although an alternative of the material variant, cannot be read from any table. -/
theorem C47_linear_wrong (t : SolidTable T) (e v s hi hk d : T) : t.read ≠ .ok (.j2 e v (.linear s hi) hk d) := by
  intro h
  unfold SolidTable.read at h
  split_ifs at h
  unfold SolidTable.decode at h
  split_ifs at h
  · obtain ⟨_, _, h⟩ := bindok h; obtain ⟨_, _, h⟩ := bindok h; obtain ⟨_, _, h⟩ := bindok h; cases h
  · obtain ⟨_, _, h⟩ := bindok h; obtain ⟨_, _, h⟩ := bindok h; obtain ⟨_, _, h⟩ := bindok h; cases h
  · cases hh : t.hardening with
    | none => rw [hh] at h; cases h
    | some a =>
      rw [hh] at h
      obtain ⟨hl, hhl, h⟩ := bindok h
      obtain ⟨_, _, h⟩ := bindok h; obtain ⟨_, _, h⟩ := bindok h; obtain ⟨_, _, h⟩ := bindok h; obtain ⟨_, _, h⟩ := bindok h
      cases h
      unfold HardTable.decode at hhl
      split_ifs at hhl <;> obtain ⟨_, _, hhl⟩ := bindok hhl <;> obtain ⟨_, _, hhl⟩ := bindok hhl <;> obtain ⟨_, _, hhl⟩ := bindok hhl <;> cases hhl

/-! ## Everything else is refused -/

private theorem get_present {e : Entry T} (h : e.present = true) : ∃ x, e.get = .ok x := by
  cases e <;> simp [Entry.present] at h
  exact ⟨_, rfl⟩

/-- Reading is total: a table is read or refused; the indeterminate default variants and the unchecked indexing are never reached. -/
theorem C47_defined (t : SolidTable T) (u : ThermalTable T) : t.read ≠ .undefined ∧ u.read ≠ .undefined := by
  constructor
  · intro h
    unfold SolidTable.read at h
    split_ifs at h with hv
    unfold SolidTable.verify at hv
    unfold SolidTable.decode at h
    have gnu : ∀ (e : Entry T), e.get ≠ .undefined := by intro e; cases e <;> nofun
    have b3 : ∀ {β : Type} (e : Entry T) (f : T → Res β), (∀ x, f x ≠ .undefined) → e.get.bind f ≠ .undefined := by
      intro β e f hf; cases e <;> first | exact hf _ | nofun
    split_ifs at h with h1 h2 h3
    · exact absurd h (b3 _ _ (fun _ => b3 _ _ fun _ => b3 _ _ fun _ => nofun))
    · exact absurd h (b3 _ _ (fun _ => b3 _ _ fun _ => b3 _ _ fun _ => nofun))
    · cases hh : t.hardening with
      | none => rw [hh] at h; cases h
      | some a =>
        rw [hh] at h hv
        simp at hv
        have : a.decode ≠ .undefined := by
          have hav := hv.1
          unfold HardTable.verify at hav
          unfold HardTable.decode
          split_ifs at hav ⊢
          · exact b3 _ _ fun _ => b3 _ _ fun _ => b3 _ _ fun _ => nofun
          · exact b3 _ _ fun _ => b3 _ _ fun _ => b3 _ _ fun _ => nofun
        dsimp only at h
        cases hd : a.decode with
        | undefined => exact this hd
        | refused => rw [hd] at h; cases h
        | ok x =>
          rw [hd] at h
          exact absurd h (b3 _ _ (fun _ => b3 _ _ fun _ => b3 _ _ fun _ => b3 _ _ fun _ => nofun))
    · simp [h1, h2, h3] at hv
  · intro h
    unfold ThermalTable.read at h
    split_ifs at h with hv
    obtain ⟨model, density, cp, kappa, dim, kt⟩ := u
    unfold ThermalTable.verify at hv
    unfold ThermalTable.decode at h
    dsimp only at hv h
    have b3 : ∀ {β : Type} (e : Entry T) (f : T → Res β), (∀ x, f x ≠ .undefined) → e.get.bind f ≠ .undefined := by
      intro β e f hf; cases e <;> first | exact hf _ | nofun
    split_ifs at hv h with h1 h2 h3
    · exact absurd h (b3 _ _ (fun _ => b3 _ _ fun _ => b3 _ _ fun _ => nofun))
    · cases dim with
      | none => cases h
      | some d =>
        cases kt with
        | none => cases h
        | some r =>
          obtain ⟨r1, r2, r3⟩ := r
          dsimp only at hv h
          split_ifs at hv h with h4 h5
          · cases r1 with
            | none => cases h
            | some v0 =>
              cases r2 with
              | none => cases h
              | some v1 =>
                simp at hv
                match v0, v1, hv.1 with
                | [a, b], [c, e], _ => exact absurd h (b3 density _ (fun _ => b3 cp _ fun _ => nofun))
          · cases r1 with
            | none => cases h
            | some v0 =>
              cases r2 with
              | none => cases h
              | some v1 =>
                cases r3 with
                | none => cases h
                | some v2 =>
                  simp at hv
                  match v0, v1, v2, hv with
                  | [a, b, c], [d, e, f], [g, i, j], _ => exact absurd h (b3 density _ (fun _ => b3 cp _ fun _ => nofun))
    · cases dim <;> cases kt <;> simp at hv

/-- Which model names are read at all. -/
theorem C47_models (t : SolidTable T) (m : Solid T) (h : t.read = .ok m) :
    t.model ∈ ["NeoHookean", "LinearIsotropic", "J2SmallStrain"] := by
  unfold SolidTable.read at h
  split_ifs at h
  unfold SolidTable.decode at h
  split_ifs at h with h1 h2 h3 <;> simp [*]

/-- A conductor that was read has exactly the numbers of its table: density, heat capacity and every entry of every row, in place. -/
theorem C47_thermal (t : ThermalTable T) (m : Thermal T) (h : t.read = .ok m) :
    t.model = (writeThermal m).model ∧ Same t.density (writeThermal m).density ∧ Same t.cp (writeThermal m).cp ∧ Same t.kappa (writeThermal m).kappa ∧
      t.dim = (writeThermal m).dim ∧ t.kappaTensor = (writeThermal m).kappaTensor := by
  unfold ThermalTable.read at h
  split_ifs at h with hv
  obtain ⟨model, density, cp, kappa, dim, kt⟩ := t
  unfold ThermalTable.verify at hv
  unfold ThermalTable.decode at h
  dsimp only at hv h ⊢
  split_ifs at hv h with h1 h2 h3
  · obtain ⟨d, hd, h⟩ := bindok h
    obtain ⟨p, hp, h⟩ := bindok h
    obtain ⟨k, hk, h⟩ := bindok h
    cases h
    simp at hv
    exact ⟨h1, getok hd ▸ same_refl _, getok hp ▸ same_refl _, getok hk ▸ same_refl _, hv.1.2, hv.2⟩
  · cases dim with
    | none => cases h
    | some dd =>
      cases kt with
      | none => cases h
      | some r =>
        obtain ⟨r1, r2, r3⟩ := r
        dsimp only at hv h
        split_ifs at hv h with h4 h5
        · cases r1 with
          | none => cases h
          | some v0 =>
            cases r2 with
            | none => cases h
            | some v1 =>
              simp at hv h3
              match v0, v1, hv, h with
              | [a, b], [c, e], hv, h =>
                obtain ⟨d, hd, h⟩ := bindok (r := density.get) h
                obtain ⟨p, hp, h⟩ := bindok h
                cases h
                refine ⟨h2, getok hd ▸ same_refl _, getok hp ▸ same_refl _, absent_same h3.2, by simp [writeThermal, h4], ?_⟩
                simp [writeThermal, hv.2]
        · cases r1 with
          | none => cases h
          | some v0 =>
            cases r2 with
            | none => cases h
            | some v1 =>
              cases r3 with
              | none => cases h
              | some v2 =>
                simp at hv h3
                match v0, v1, v2, hv, h with
                | [a, b, c], [d', e, f], [g, i, j], hv, h =>
                  obtain ⟨d, hd, h⟩ := bindok (r := density.get) h
                  obtain ⟨p, hp, h⟩ := bindok h
                  cases h
                  refine ⟨h2, getok hd ▸ same_refl _, getok hp ▸ same_refl _, absent_same h3.2, by simp [writeThermal, h5], ?_⟩
                  simp [writeThermal]
  · cases dim <;> cases kt <;> simp at hv

/-! ## Examples -/

example : (⟨"LinearConductor", .number 1, .number 2, .absent, some 2, some (some [3, 4], some [4, 5], none)⟩ : ThermalTable ℕ).read =
    .ok (.conductor2 1 2 ![![3, 4], ![4, 5]]) := by
  have := C47_thermal_round_trip (T := ℕ) (.conductor2 1 2 ![![3, 4], ![4, 5]])
  simpa [writeThermal] using this

example : (⟨"J2SmallStrain", .number 1, .absent, .absent, .number 2, .number 3, .number 4,
    some ⟨"VoceHardening", .number 5, .absent, .absent, .number 6, .number 7⟩⟩ : SolidTable ℕ).read = .ok (.j2 2 3 (.voce 5 6 7) 4 1) :=
  C47_solid_round_trip (T := ℕ) (.j2 2 3 (.voce 5 6 7) 4 1) _ rfl

end Serac.C47
