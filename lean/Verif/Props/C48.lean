import Verif.Model.CreatePhysics
import Mathlib.Tactic.Linarith
/-!
# C48: the module built from an input file honours the file

Materials, boundary conditions, initial conditions, order and dimension of the file reach the module, or the file is refused.
-/

namespace Serac.C48
open Serac.CreatePhysics

variable {C : Type}

/-! ## What a file asks for -/

def solidPayload : SolidMat C → C
  | .elastic m => m
  | .j2 m => m

def heatPayload : HeatMat C → C
  | .isotropic m => m
  | .conductor _ m => m

/-- The essential condition a boundary condition asks for: a vector coefficient fixes all components, a scalar one the component given. -/
def asked (b : BC C) : Essential C := ⟨b.coef, if b.isVector then none else b.component⟩

/-- A solid module honours a solid block. -/
structure HonoursSolid (dim : Int) (o : SolidOptions C) (m : Solid C) : Prop where
  order : m.order = o.order
  dim : m.dim = dim
  materials : m.materials = o.materials.map solidPayload
  displacement : m.displacement = o.initialDisplacement
  velocity : m.velocity = o.initialVelocity
  essential : m.essential.Perm ((o.bcs.filter fun b => decide (has b.1 "displacement")).map fun b => asked b.2)

/-- A heat module honours a heat block. -/
structure HonoursHeat (dim : Int) (o : HeatOptions C) (m : Heat C) : Prop where
  order : m.order = o.order
  dim : m.dim = dim
  materials : m.materials = o.materials.map heatPayload
  temperature : m.temperature = o.initialTemperature
  source : o.source = none
  essential : m.essential.Perm ((o.bcs.filter fun b => decide (has b.1 "temperature")).map fun b => asked b.2)

private theorem bindok {α β : Type} {r : Res α} {f : α → Res β} {b : β} (h : r.bind f = .ok b) : ∃ a, r = .ok a ∧ f a = .ok b := by
  cases r with
  | ok a => exact ⟨a, rfl, h⟩
  | refused => cases h
  | undefined => cases h

private theorem solidMats (dim : Int) : ∀ (l : List (SolidMat C)) (r : List C), applySolidMats dim l = .ok r →
    r = l.map solidPayload ∧ (dim = 3 ∨ ∀ m ∈ l, ∃ x, m = .elastic x)
  | [], r, h => by cases h; exact ⟨rfl, Or.inr fun m hm => by cases hm⟩
  | .elastic m :: t, r, h => by
    obtain ⟨r', hr, h⟩ := bindok h
    cases h
    obtain ⟨h1, h2⟩ := solidMats dim t r' hr
    refine ⟨by rw [h1]; rfl, h2.imp id fun h2 => ?_⟩
    intro x hx
    rcases List.mem_cons.1 hx with hx | hx
    · exact ⟨m, hx⟩
    · exact h2 x hx
  | .j2 m :: t, r, h => by
    unfold applySolidMats at h
    split_ifs at h with hd
    obtain ⟨r', hr, h⟩ := bindok h
    cases h
    exact ⟨by rw [(solidMats dim t r' hr).1]; rfl, Or.inl hd⟩

private theorem solidBCs : ∀ (l : List (String × BC C)) (r : List (Essential C)), applySolidBCs l = .ok r →
    r = (l.filter fun b => decide (has b.1 "displacement")).map (fun b => asked b.2) ∧
      ∀ b ∈ l, has b.1 "displacement" ∨ (¬ has b.1 "traction" ∧ ¬ has b.1 "pressure")
  | [], r, h => by cases h; exact ⟨rfl, fun b hb => by cases hb⟩
  | (name, b) :: t, r, h => by
    unfold applySolidBCs at h
    split_ifs at h with h1 h2 h3 h4 h5 h6
    · obtain ⟨r', hr, h⟩ := bindok h
      cases h
      obtain ⟨k1, k2⟩ := solidBCs t r' hr
      refine ⟨by rw [k1]; simp [h1, asked, h2], fun x hx => ?_⟩
      rcases List.mem_cons.1 hx with hx | hx
      · subst hx; exact Or.inl h1
      · exact k2 x hx
    · cases hc : b.component with
      | none => rw [hc] at h; cases h
      | some c =>
        rw [hc] at h
        obtain ⟨r', hr, h⟩ := bindok h
        cases h
        obtain ⟨k1, k2⟩ := solidBCs t r' hr
        refine ⟨by rw [k1]; simp [h1, asked, h2, hc], fun x hx => ?_⟩
        rcases List.mem_cons.1 hx with hx | hx
        · subst hx; exact Or.inl h1
        · exact k2 x hx
    · obtain ⟨k1, k2⟩ := solidBCs t r h
      refine ⟨by rw [k1]; simp [h1], fun x hx => ?_⟩
      rcases List.mem_cons.1 hx with hx | hx
      · subst hx; exact Or.inr ⟨h3, h5⟩
      · exact k2 x hx

/-- A solid file (no heat or coupled block).  Missing: boundary conditions with an unknown name are only warned about. -/
theorem C48_solid_partial (dim : Int) (f : File C) (o : SolidOptions C) (iter : List (String × BC C) → List (String × BC C)) (hi : ∀ l, (iter l).Perm l)
    (hs : f.solid = some o) (hh : f.heat = none) (ht : f.thermo = none) (m : Module C) (h : driver dim f iter = .ok m) :
    ∃ s, m = .solid s ∧ HonoursSolid dim o s ∧ (dim = 2 ∨ dim = 3) ∧ 1 ≤ o.order ∧ o.order ≤ 3 ∧
      ∀ b ∈ o.bcs, has b.1 "displacement" ∨ (¬ has b.1 "traction" ∧ ¬ has b.1 "pressure") := by
  unfold driver at h
  split_ifs at h with hd
  obtain ⟨order, ho, h⟩ := bindok h
  obtain ⟨mo, hm, h⟩ := bindok h
  have ho' : order = o.order ∧ 1 ≤ o.order ∧ o.order ≤ 3 := by
    unfold getOrder at ho
    rw [hs, hh, ht] at ho
    dsimp only at ho
    split_ifs at ho with hr
    cases ho
    push Not at hr
    exact ⟨rfl, hr⟩
  have hd' : dim = 2 ∨ dim = 3 := by omega
  unfold createPhysics at hm
  rw [hs, hh, ht] at hm
  dsimp only at hm
  have hk : (decide ((order = 1 ∨ order = 2 ∨ order = 3) ∧ (dim = 2 ∨ dim = 3))) = true := by
    simp only [decide_eq_true_eq]; exact ⟨by omega, hd'⟩
  rw [if_pos hk] at hm
  obtain ⟨m1, hm1, hm⟩ := bindok hm
  obtain ⟨s, hs', hm1⟩ := bindok hm1
  cases hm1
  cases hm
  cases h
  unfold buildSolid at hs'
  obtain ⟨ms, h1, hs'⟩ := bindok hs'
  obtain ⟨es, h2, hs'⟩ := bindok hs'
  cases hs'
  obtain ⟨k1, k2⟩ := solidBCs _ _ h2
  refine ⟨_, rfl, ⟨ho'.1, rfl, (solidMats dim _ _ h1).1, rfl, rfl, ?_⟩, hd', ho'.2.1, ho'.2.2, fun b hb => k2 b ((hi _).mem_iff.2 hb)⟩
  dsimp only
  rw [k1]
  exact ((hi o.bcs).filter _).map _

private theorem heatBCs : ∀ (l : List (String × BC C)) (r : List (Essential C)), applyHeatBCs l = .ok r →
    r = (l.filter fun b => decide (has b.1 "temperature")).map fun b => asked b.2
  | [], r, h => by cases h; rfl
  | (name, b) :: t, r, h => by
    unfold applyHeatBCs at h
    split_ifs at h with h1 h2 h3
    · cases hc : b.component with
      | none => rw [hc] at h; cases h
      | some c =>
        rw [hc] at h
        obtain ⟨r', hr, h⟩ := bindok h
        cases h
        rw [heatBCs t r' hr]
        simp [h1, asked, h2, hc]
    · rw [heatBCs t r h]
      simp [h1]

private theorem heatMats (dim : Int) : ∀ (l : List (HeatMat C)), (∀ d m, HeatMat.conductor d m ∈ l → d = dim) →
    applyHeatMats dim l = l.map heatPayload
  | [], _ => rfl
  | .isotropic m :: t, h => by
    unfold applyHeatMats
    rw [heatMats dim t fun d m hm => h d m (List.mem_cons_of_mem _ hm)]
    rfl
  | .conductor d m :: t, h => by
    unfold applyHeatMats
    rw [if_pos (h d m List.mem_cons_self), heatMats dim t fun d m hm => h d m (List.mem_cons_of_mem _ hm)]
    rfl

/-- A heat file.  Missing: a conductor whose dimension is not that of the mesh is dropped silently. -/
theorem C48_heat_partial (dim : Int) (f : File C) (o : HeatOptions C) (iter : List (String × BC C) → List (String × BC C))
    (hs : f.solid = none) (hh : f.heat = some o) (ht : f.thermo = none) (m : Module C) (h : driver dim f iter = .ok m)
    (hc : ∀ d m, HeatMat.conductor d m ∈ o.materials → d = dim) :
    ∃ s, m = .heat s ∧ HonoursHeat dim o s ∧ (dim = 2 ∨ dim = 3) ∧ 1 ≤ o.order ∧ o.order ≤ 3 := by
  unfold driver at h
  split_ifs at h with hd
  obtain ⟨order, ho, h⟩ := bindok h
  obtain ⟨mo, hm, h⟩ := bindok h
  have ho' : order = o.order ∧ 1 ≤ o.order ∧ o.order ≤ 3 := by
    unfold getOrder at ho
    rw [hs, hh, ht] at ho
    dsimp only at ho
    split_ifs at ho with hr
    cases ho
    push Not at hr
    exact ⟨rfl, hr⟩
  have hd' : dim = 2 ∨ dim = 3 := by omega
  unfold createPhysics at hm
  rw [hs, hh, ht] at hm
  dsimp only at hm
  have hk : (decide ((order = 1 ∨ order = 2 ∨ order = 3) ∧ (dim = 2 ∨ dim = 3))) = true := by
    simp only [decide_eq_true_eq]; exact ⟨by omega, hd'⟩
  rw [if_pos hk] at hm
  obtain ⟨m1, hm1, hm⟩ := bindok hm
  obtain ⟨s, hs', hm1⟩ := bindok hm1
  cases hm1
  cases hm
  cases h
  unfold buildHeat at hs'
  split_ifs at hs' with hsrc
  obtain ⟨es, h2, hs'⟩ := bindok hs'
  cases hs'
  refine ⟨_, rfl, ⟨ho'.1, rfl, heatMats dim _ hc, rfl, by simpa using hsrc, ?_⟩, hd', ho'.2.1, ho'.2.2⟩
  dsimp only
  rw [heatBCs _ _ h2]
  exact ((List.mergeSort_perm _ _).filter _).map _

/-! ## Order of application -/

/-- The heat module does not depend on the order in which the file's boundary conditions are traversed (their names are distinct, being keys of a map). -/
theorem C48_heat_order (dim order : Int) (o o' : HeatOptions C) (hn : (o.bcs.map Prod.fst).Nodup) (hp : o.bcs.Perm o'.bcs)
    (he : o' = { o with bcs := o'.bcs }) : buildHeat dim order o = buildHeat dim order o' := by
  have hsort : sortBCs o.bcs = sortBCs o'.bcs := by
    unfold sortBCs
    have tr : ∀ a b c : String × BC C, decide (a.1 ≤ b.1) = true → decide (b.1 ≤ c.1) = true → decide (a.1 ≤ c.1) = true := by
      intro a b c h1 h2
      simp only [decide_eq_true_eq] at *
      exact le_trans h1 h2
    have tot : ∀ a b : String × BC C, (decide (a.1 ≤ b.1) || decide (b.1 ≤ a.1)) = true := by
      intro a b
      simp only [Bool.or_eq_true, decide_eq_true_eq]
      exact le_total _ _
    refine List.Perm.eq_of_pairwise (le := fun a b => decide (a.1 ≤ b.1) = true) ?_ (List.pairwise_mergeSort tr tot _) (List.pairwise_mergeSort tr tot _)
      (((List.mergeSort_perm _ _).trans hp).trans (List.mergeSort_perm _ _).symm)
    intro a b ha hb h1 h2
    simp only [decide_eq_true_eq] at h1 h2
    have hab : a.1 = b.1 := le_antisymm h1 h2
    have ha' : a ∈ o.bcs := (List.mergeSort_perm _ _).mem_iff.1 ha
    have hb' : b ∈ o.bcs := hp.mem_iff.2 ((List.mergeSort_perm _ _).mem_iff.1 hb)
    exact List.inj_on_of_nodup_map hn ha' hb' hab
  unfold buildHeat
  rw [he, hsort]

/-- The solid module does: with two conditions on the same boundary the later one wins (C26), and which one is later is up to the `unordered_map`. -/
theorem C48_solid_order_wrong (dim order : Int) (c c' : C) (hc : c ≠ c') :
    ∃ (o : SolidOptions C) (i i' : List (String × BC C)) (m m' : Solid C), i.Perm o.bcs ∧ i'.Perm o.bcs ∧ buildSolid dim order o i = .ok m ∧
      buildSolid dim order o i' = .ok m' ∧ m.essential ≠ m'.essential := by
  let b1 : String × BC C := ("displacement_a", ⟨c, true, none⟩)
  let b2 : String × BC C := ("displacement_b", ⟨c', true, none⟩)
  have h1 : has "displacement_a" "displacement" := by decide
  have h2 : has "displacement_b" "displacement" := by decide
  refine ⟨⟨1, [], none, none, [b1, b2]⟩, [b1, b2], [b2, b1], ⟨order, dim, [], none, none, [⟨c, none⟩, ⟨c', none⟩]⟩,
    ⟨order, dim, [], none, none, [⟨c', none⟩, ⟨c, none⟩]⟩, List.Perm.refl _, List.Perm.swap _ _ _, ?_, ?_, ?_⟩
  · simp [buildSolid, applySolidMats, applySolidBCs, Res.bind, b1, b2, h1, h2]
  · simp [buildSolid, applySolidMats, applySolidBCs, Res.bind, b1, b2, h1, h2]
  · simp [hc]

/-! ## Where the claim fails -/

/-- Every coupled file: whatever materials, boundary conditions, initial conditions and expansion coefficients it has, the module is built with none of
them. -/
theorem C48_coupled_wrong (dim : Int) (f : File C) (iter : List (String × BC C) → List (String × BC C)) (hd : dim = 2 ∨ dim = 3)
    (s : SolidOptions C) (h : HeatOptions C) (hf : (∃ e, f.thermo = some ⟨s, h, e⟩) ∨ (f.thermo = none ∧ f.solid = some s ∧ f.heat = some h))
    (ho : s.order = h.order) (hr : 1 ≤ s.order ∧ s.order ≤ 3) :
    driver dim f iter = .ok (.thermo ⟨s.order, dim, [], none, none, []⟩ ⟨s.order, dim, [], none, []⟩ none) := by
  have hd' : ¬ (dim < 2 ∨ dim > 3) := by omega
  have hr' : ¬ (s.order < 1 ∨ s.order > 3) := by omega
  have hk : (decide ((s.order = 1 ∨ s.order = 2 ∨ s.order = 3) ∧ (dim = 2 ∨ dim = 3))) = true := by
    simp only [decide_eq_true_eq]; exact ⟨by omega, hd⟩
  unfold driver
  rw [if_neg hd']
  rcases hf with ⟨e, hf⟩ | ⟨h1, h2, h3⟩
  · have hg : getOrder f = .ok s.order := by
      unfold getOrder
      rw [hf]
      dsimp only
      rw [if_neg (not_not.2 ho), if_neg hr']
    rw [hg]
    simp only [Res.bind, createPhysics, hf]
    rw [if_pos hk]
    rfl
  · have hg : getOrder f = .ok s.order := by
      unfold getOrder
      rw [h1, h2, h3]
      dsimp only
      rw [if_neg (not_not.2 ho), if_neg hr']
    rw [hg]
    simp only [Res.bind, createPhysics, h1, h2, h3]
    rw [if_pos hk]
    rfl

/-- So a coupled file with at least one solid material is never honoured. -/
theorem C48_coupled_materials_wrong (dim : Int) (f : File C) (iter : List (String × BC C) → List (String × BC C)) (hd : dim = 2 ∨ dim = 3)
    (s : SolidOptions C) (h : HeatOptions C) (e : Option (C × C)) (hf : f.thermo = some ⟨s, h, e⟩) (ho : s.order = h.order)
    (hr : 1 ≤ s.order ∧ s.order ≤ 3) (hm : s.materials ≠ []) :
    ∃ ms mh me, driver dim f iter = .ok (.thermo ms mh me) ∧ ¬ HonoursSolid dim s ms ∧ (e.isSome → me ≠ e) := by
  refine ⟨_, _, _, C48_coupled_wrong dim f iter hd s h (Or.inl ⟨e, hf⟩) ho hr, fun hh => ?_, fun he => ?_⟩
  · have := hh.materials
    simp at this
    exact hm this
  · cases e with
    | none => cases he
    | some x => nofun

/-- The documented way to fix a temperature, a scalar without a component, dereferences an empty `optional`: any heat file whose boundary conditions are all
scalar temperatures and one of which has no component. -/
theorem C48_temperature_wrong (dim : Int) (f : File C) (o : HeatOptions C) (iter : List (String × BC C) → List (String × BC C)) (hd : dim = 2 ∨ dim = 3)
    (hs : f.solid = none) (hh : f.heat = some o) (ht : f.thermo = none) (hr : 1 ≤ o.order ∧ o.order ≤ 3) (hsrc : o.source = none)
    (hall : ∀ b ∈ o.bcs, has b.1 "temperature" ∧ b.2.isVector = false) (hex : ∃ b ∈ o.bcs, b.2.component = none) :
    driver dim f iter = .undefined := by
  have key : ∀ l : List (String × BC C), (∀ b ∈ l, has b.1 "temperature" ∧ b.2.isVector = false) → (∃ b ∈ l, b.2.component = none) →
      applyHeatBCs l = .undefined := by
    intro l
    induction l with
    | nil => rintro _ ⟨b, hb, _⟩; cases hb
    | cons x t ih =>
      obtain ⟨name, b⟩ := x
      intro ha he
      have h0 := ha _ List.mem_cons_self
      unfold applyHeatBCs
      rw [if_pos h0.1, if_neg (by rw [h0.2]; nofun)]
      cases hc : b.component with
      | none => rfl
      | some c =>
        dsimp only
        have : ∃ b ∈ t, b.2.component = none := by
          obtain ⟨y, hy, hn⟩ := he
          rcases List.mem_cons.1 hy with hy | hy
          · subst hy; rw [hc] at hn; cases hn
          · exact ⟨y, hy, hn⟩
        rw [ih (fun b hb => ha b (List.mem_cons_of_mem _ hb)) this]
        rfl
  have hperm : (sortBCs o.bcs).Perm o.bcs := List.mergeSort_perm _ _
  have hb := key (sortBCs o.bcs) (fun b hb => hall b (hperm.mem_iff.1 hb)) (by obtain ⟨b, hb, hn⟩ := hex; exact ⟨b, hperm.mem_iff.2 hb, hn⟩)
  have hk : (decide ((o.order = 1 ∨ o.order = 2 ∨ o.order = 3) ∧ (dim = 2 ∨ dim = 3))) = true := by
    simp only [decide_eq_true_eq]; exact ⟨by omega, hd⟩
  have hg : getOrder f = .ok o.order := by
    unfold getOrder
    rw [hs, hh, ht]
    dsimp only
    rw [if_neg (by omega)]
  unfold driver
  rw [if_neg (by omega), hg]
  simp only [Res.bind, createPhysics, hs, hh, ht]
  rw [if_pos hk]
  simp [buildHeat, hsrc, hb, Res.bind]

/-- A conductor of the wrong dimension leaves the module without any material. -/
theorem C48_conductor_wrong (dim order d : Int) (c : C) (hdd : d ≠ dim) (t : Option C) :
    buildHeat dim order ⟨order, [.conductor d c], t, none, []⟩ = .ok ⟨order, dim, [], t, []⟩ := by
  simp [buildHeat, applyHeatMats, sortBCs, applyHeatBCs, Res.bind, hdd]

/-! ## What is refused, what is defined -/

/-- Mismatched orders, orders outside 1 to 3, dimensions outside 2 to 3 and files without a physics block are refused. -/
theorem C48_refused (dim : Int) (f : File C) (iter : List (String × BC C) → List (String × BC C))
    (h : (dim < 2 ∨ dim > 3) ∨ (f.solid = none ∧ f.heat = none ∧ f.thermo = none) ∨
      (∃ t, f.thermo = some t ∧ (t.solid.order ≠ t.heat.order ∨ t.solid.order < 1 ∨ t.solid.order > 3)) ∨
      (f.thermo = none ∧ ∃ s o, f.solid = some s ∧ f.heat = some o ∧ (s.order ≠ o.order ∨ s.order < 1 ∨ s.order > 3)) ∨
      (f.thermo = none ∧ f.heat = none ∧ ∃ s, f.solid = some s ∧ (s.order < 1 ∨ s.order > 3)) ∨
      (f.thermo = none ∧ f.solid = none ∧ ∃ o, f.heat = some o ∧ (o.order < 1 ∨ o.order > 3))) : driver dim f iter = .refused := by
  unfold driver
  by_cases hd : dim < 2 ∨ dim > 3
  · rw [if_pos hd]
  rw [if_neg hd]
  have hg : getOrder f = .refused := by
    unfold getOrder
    rcases h with h | ⟨h1, h2, h3⟩ | ⟨t, h1, h2⟩ | ⟨h0, s, o, h1, h2, h3⟩ | ⟨h0, h1, s, h2, h3⟩ | ⟨h0, h1, o, h2, h3⟩
    · exact absurd h hd
    · rw [h1, h2, h3]
    · rw [h1]
      dsimp only
      split_ifs with a b
      · rfl
      · rfl
      · exact absurd (h2.resolve_left a) b
    · rw [h0, h1, h2]
      dsimp only
      split_ifs with a b
      · rfl
      · rfl
      · exact absurd (h3.resolve_left a) b
    · rw [h0, h1, h2]
      dsimp only
      rw [if_pos h3]
    · rw [h0, h1, h2]
      dsimp only
      rw [if_pos h3]
  rw [hg]
  rfl

/-- The only undefined behaviour is the missing component of a temperature: in particular the null pointer of `createPhysics` is never dereferenced. -/
theorem C48_defined (dim : Int) (f : File C) (iter : List (String × BC C) → List (String × BC C)) (h : driver dim f iter = .undefined) :
    f.thermo = none ∧ f.solid = none ∧ ∃ o, f.heat = some o ∧ ∃ b ∈ o.bcs, has b.1 "temperature" ∧ b.2.isVector = false ∧ b.2.component = none := by
  have sm : ∀ (dim : Int) (l : List (SolidMat C)), applySolidMats dim l ≠ .undefined := by
    intro dim l
    induction l with
    | nil => nofun
    | cons x t ih =>
      cases x <;> unfold applySolidMats <;> (try split_ifs) <;>
        first
        | (simp; done)
        | (cases hx : applySolidMats dim t <;> first | exact absurd hx ih | simp [Res.bind])
  have sb : ∀ l : List (String × BC C), applySolidBCs l ≠ .undefined := by
    intro l
    induction l with
    | nil => nofun
    | cons x t ih =>
      obtain ⟨name, b⟩ := x
      unfold applySolidBCs
      split_ifs
      · cases hx : applySolidBCs t <;> first | exact absurd hx ih | nofun
      · cases hc : b.component
        · nofun
        · cases hx : applySolidBCs t <;> first | exact absurd hx ih | nofun
      · nofun
      · nofun
      · nofun
      · nofun
      · exact ih
  have hb : ∀ l : List (String × BC C), applyHeatBCs l = .undefined → ∃ b ∈ l, has b.1 "temperature" ∧ b.2.isVector = false ∧ b.2.component = none := by
    intro l
    induction l with
    | nil => nofun
    | cons x t ih =>
      obtain ⟨name, b⟩ := x
      unfold applyHeatBCs
      split_ifs with h1 h2 h3
      · nofun
      · cases hc : b.component with
        | none => intro _; exact ⟨(name, b), List.mem_cons_self, h1, by simpa using h2, hc⟩
        | some c =>
          intro hu
          cases hx : applyHeatBCs t with
          | ok r => rw [hx] at hu; cases hu
          | refused => rw [hx] at hu; cases hu
          | undefined => obtain ⟨y, hy, hy'⟩ := ih hx; exact ⟨y, List.mem_cons_of_mem _ hy, hy'⟩
      · nofun
      · intro hu; obtain ⟨y, hy, hy'⟩ := ih hu; exact ⟨y, List.mem_cons_of_mem _ hy, hy'⟩
  unfold driver at h
  split_ifs at h with hd
  have hd' : dim = 2 ∨ dim = 3 := by omega
  have hgu : getOrder f ≠ .undefined := by
    unfold getOrder
    cases f.thermo <;> cases f.solid <;> cases f.heat <;> dsimp only <;> (try split_ifs) <;> nofun
  have hgr : ∀ o, getOrder f = .ok o → 1 ≤ o ∧ o ≤ 3 := by
    intro o ho
    unfold getOrder at ho
    cases h1 : f.thermo <;> cases h2 : f.solid <;> cases h3 : f.heat <;> rw [h1, h2, h3] at ho <;> dsimp only at ho <;> (try split_ifs at ho) <;>
      first
      | (cases ho; constructor <;> omega)
      | cases ho
  cases hg : getOrder f with
  | undefined => exact absurd hg hgu
  | refused => rw [hg] at h; cases h
  | ok order =>
    rw [hg] at h
    have hr := hgr order hg
    have hk : (decide ((order = 1 ∨ order = 2 ∨ order = 3) ∧ (dim = 2 ∨ dim = 3))) = true := by
      simp only [decide_eq_true_eq]; exact ⟨by omega, hd'⟩
    simp only [Res.bind, createPhysics] at h
    simp only [hk, if_true] at h
    cases h1 : f.thermo with
    | some t => simp [h1, buildThermo] at h
    | none =>
      cases h2 : f.solid with
      | some s =>
        cases h3 : f.heat with
        | some o => simp [h1, h2, h3, buildThermo] at h
        | none =>
          simp only [h1, h2, h3] at h
          cases hx : buildSolid dim order s (iter s.bcs) with
          | ok m => simp [hx] at h
          | refused => simp [hx] at h
          | undefined =>
            exfalso
            unfold buildSolid at hx
            cases ha : applySolidMats dim s.materials with
            | undefined => exact sm _ _ ha
            | refused => rw [ha] at hx; cases hx
            | ok a =>
              rw [ha] at hx
              cases hc : applySolidBCs (iter s.bcs) with
              | undefined => exact sb _ hc
              | refused => simp [Res.bind, hc] at hx
              | ok b => simp [Res.bind, hc] at hx
      | none =>
        cases h3 : f.heat with
        | none => simp [h1, h2, h3] at h
        | some o =>
          simp only [h1, h2, h3] at h
          refine ⟨rfl, rfl, o, rfl, ?_⟩
          cases hx : buildHeat dim order o with
          | ok m => simp [hx] at h
          | refused => simp [hx] at h
          | undefined =>
            unfold buildHeat at hx
            split_ifs at hx
            cases ha : applyHeatBCs (sortBCs o.bcs) with
            | ok r => rw [ha] at hx; cases hx
            | refused => rw [ha] at hx; cases hx
            | undefined =>
              obtain ⟨b, hb1, hb2⟩ := hb _ ha
              exact ⟨b, (List.mergeSort_perm _ _).mem_iff.1 hb1, hb2⟩

/-! ## Time stepping methods -/

/-- A solid file: exactly three names run, each with the method it names. -/
theorem C48_solid_methods (s : String) (m : Method) :
    setMethod secondOrderAccepts (solidMethod s) = .ok m ↔
      (s = "AverageAcceleration" ∧ m = .AverageAcceleration) ∨ (s = "NewmarkBeta" ∧ m = .Newmark) ∨ (s = "BackwardEuler" ∧ m = .BackwardEuler) := by
  constructor
  · intro h
    unfold setMethod at h
    obtain ⟨k, hk, h⟩ := bindok h
    split_ifs at h
    cases h
    unfold solidMethod at hk
    split at hk <;> cases hk <;> simp
  · rintro (⟨h, h'⟩ | ⟨h, h'⟩ | ⟨h, h'⟩) <;> subst h <;> subst h' <;> rfl

/-- A heat file: two names run. -/
theorem C48_heat_methods_partial (s : String) (m : Method) :
    setMethod firstOrderAccepts (heatMethod s) = .ok m ↔ (s = "BackwardEuler" ∧ m = .BackwardEuler) ∨ (s = "ForwardEuler" ∧ m = .ForwardEuler) := by
  constructor
  · intro h
    unfold setMethod at h
    obtain ⟨k, hk, h⟩ := bindok h
    split_ifs at h with hm
    cases h
    unfold heatMethod at hk
    split at hk <;> cases hk <;> first | (simp; done) | exact absurd hm (by decide)
  · rintro (⟨h, h'⟩ | ⟨h, h'⟩) <;> subst h <;> subst h' <;> rfl

/-- The third name the reader of a heat file knows always stops the program: there is no such first order method. -/
theorem C48_heat_methods_wrong :
    heatMethod "AverageAcceleration" = .ok .AverageAcceleration ∧ setMethod firstOrderAccepts (heatMethod "AverageAcceleration") = .refused := ⟨rfl, rfl⟩

/-! ## Examples -/

private def exSolid : SolidOptions ℕ := ⟨2, [.elastic 1, .j2 2], some 3, none, [("displacement_x", ⟨4, false, some 0⟩), ("note", ⟨5, true, none⟩)]⟩

example : driver 3 ⟨some exSolid, none, none⟩ id = .ok (.solid ⟨2, 3, [1, 2], some 3, none, [⟨4, some 0⟩]⟩) := by
  have h1 : has "displacement_x" "displacement" := by decide
  have h2 : ¬ has "note" "displacement" := by decide
  have h3 : ¬ has "note" "traction" := by decide
  have h4 : ¬ has "note" "traction_ref" := by decide
  have h5 : ¬ has "note" "pressure" := by decide
  have h6 : ¬ has "note" "pressure_ref" := by decide
  simp [driver, getOrder, createPhysics, buildSolid, applySolidMats, applySolidBCs, exSolid, Res.bind, h1, h2, h3, h4, h5, h6]

/-- The same file with a heat block beside it loses its materials. -/
example : driver 3 ⟨some exSolid, some ⟨2, [.isotropic 7], none, none, []⟩, none⟩ id =
    .ok (.thermo ⟨2, 3, [], none, none, []⟩ ⟨2, 3, [], none, []⟩ none) :=
  C48_coupled_wrong 3 _ id (Or.inr rfl) exSolid ⟨2, [.isotropic 7], none, none, []⟩ (Or.inr ⟨rfl, rfl, rfl⟩) rfl (by decide)

end Serac.C48
