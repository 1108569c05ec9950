import Verif.Model.Input
import Mathlib.Tactic.Linarith
import Mathlib.Data.List.Nodup
/-!
# C37: coefficients in the input file

Spec.  An entry defines its coefficient in one of six ways (`Kind`).  It is accepted iff exactly one is present.  Vector kinds give vector
coefficients only, scalar kinds scalar ones only.  A piecewise constant takes the value given for the queried attribute and zero elsewhere.

The last part fails for attributes above the largest one given (`C37_above_wrong`).
-/

noncomputable section
namespace Serac.C37
open Serac.Input

variable {VF SF : Type}

/-- The six ways of defining a coefficient. -/
inductive Kind where
  | vectorFunction | scalarFunction | constant | vectorConstant | piecewise | vectorPiecewise

/-- The entry contains a definition of kind `k`. -/
def Present (b : Entry VF SF) : Kind → Prop
  | .vectorFunction => ∃ f, b.vectorFunction = some f
  | .scalarFunction => ∃ f, b.scalarFunction = some f
  | .constant => ∃ c, b.constant = some c
  | .vectorConstant => ∃ c, b.vectorConstant = some c
  | .piecewise => ∃ t, b.piecewise = some t
  | .vectorPiecewise => ∃ t, b.vectorPiecewise = some t

def Kind.vector : Kind → Prop
  | .vectorFunction | .vectorConstant | .vectorPiecewise => True
  | _ => False

/-- Every vector in the entry gives its `x`. -/
def WellFormed (b : Entry VF SF) : Prop :=
  (∀ v, b.vectorConstant = some v → v.x ≠ none) ∧ ∀ t, b.vectorPiecewise = some t → ∀ e ∈ t, e.2.x ≠ none

/-- The table of a piecewise definition is not empty. -/
def NonEmpty (b : Entry VF SF) : Prop := b.piecewise ≠ some [] ∧ b.vectorPiecewise ≠ some []

theorem parseVector_ok (v : VecIn) (h : v.x ≠ none) : ∃ x, parseVector v = .ok x := by
  unfold parseVector
  rcases v with ⟨x, y, z⟩
  cases x with
  | none => exact absurd rfl h
  | some x => cases y <;> cases z <;> exact ⟨_, rfl⟩

theorem parseTable_ok (t : List (ℤ × VecIn)) (h : ∀ e ∈ t, e.2.x ≠ none) : ∃ r, parseTable t = .ok r ∧ r.length = t.length := by
  induction t with
  | nil => exact ⟨_, rfl, rfl⟩
  | cons e t ih =>
    obtain ⟨r, hr, hl⟩ := ih fun e' he => h e' (by simp [he])
    obtain ⟨x, hx⟩ := parseVector_ok e.2 (h e (by simp))
    refine ⟨(e.1, x) :: r, ?_, by simp [hl]⟩
    rw [parseTable, hx, hr]
    rfl

/-- **C37, vectors.**  `x`, then `y` if given, then `z` if both are given. -/
theorem C37_vector (x : ℝ) (y z : Option ℝ) :
    parseVector ⟨some x, y, z⟩ = .ok (x :: match y, z with | none, _ => [] | some y, none => [y] | some y, some z => [y, z]) := by
  cases y <;> cases z <;> rfl

private theorem count_one : ∀ b1 b2 b3 b4 b5 b6 : Bool, b1.toNat + b2.toNat + b3.toNat + b4.toNat + b5.toNat + b6.toNat = 1 ↔
    (b1 = true ∧ b2 = false ∧ b3 = false ∧ b4 = false ∧ b5 = false ∧ b6 = false) ∨
    (b1 = false ∧ b2 = true ∧ b3 = false ∧ b4 = false ∧ b5 = false ∧ b6 = false) ∨
    (b1 = false ∧ b2 = false ∧ b3 = true ∧ b4 = false ∧ b5 = false ∧ b6 = false) ∨
    (b1 = false ∧ b2 = false ∧ b3 = false ∧ b4 = true ∧ b5 = false ∧ b6 = false) ∨
    (b1 = false ∧ b2 = false ∧ b3 = false ∧ b4 = false ∧ b5 = true ∧ b6 = false) ∨
    (b1 = false ∧ b2 = false ∧ b3 = false ∧ b4 = false ∧ b5 = false ∧ b6 = true) := by
  intro b1 b2 b3 b4 b5 b6
  cases b1 <;> cases b2 <;> cases b3 <;> cases b4 <;> cases b5 <;> cases b6 <;> decide

/-- Options read from a well-formed entry. -/
theorem fromInlet_eq (b : Entry VF SF) (h : WellFormed b) : ∃ vc vpw, parseOptVector b.vectorConstant = .ok vc ∧ parseOptTable b.vectorPiecewise = .ok vpw ∧
    (vc.isSome = b.vectorConstant.isSome) ∧ (vpw.isEmpty = (b.vectorPiecewise.getD []).isEmpty) := by
  have h1 : ∃ vc, parseOptVector b.vectorConstant = .ok vc ∧ vc.isSome = b.vectorConstant.isSome := by
    cases hv : b.vectorConstant with
    | none => exact ⟨none, rfl, rfl⟩
    | some v =>
      obtain ⟨x, hx⟩ := parseVector_ok v (h.1 v hv)
      exact ⟨some x, by rw [parseOptVector, hx]; rfl, rfl⟩
  have h2 : ∃ vpw, parseOptTable b.vectorPiecewise = .ok vpw ∧ (vpw.isEmpty = (b.vectorPiecewise.getD []).isEmpty) := by
    cases hv : b.vectorPiecewise with
    | none => exact ⟨[], rfl, rfl⟩
    | some t =>
      obtain ⟨r, hr, hl⟩ := parseTable_ok t (h.2 t hv)
      refine ⟨r, hr, ?_⟩
      cases r <;> cases t <;> simp at hl ⊢
  obtain ⟨vc, e1, e2⟩ := h1
  obtain ⟨vpw, e3, e4⟩ := h2
  exact ⟨vc, vpw, e1, e3, e2, e4⟩

/-- **C37, acceptance.**  A well-formed entry is accepted iff exactly one definition is present, and refused otherwise. -/
theorem C37_accept (b : Entry VF SF) (h : WellFormed b) :
    ((∃ o, fromInlet b = .ok o) ↔ ∃! k, Present b k) ∧ ((¬∃! k, Present b k) → fromInlet b = .refused) := by
  obtain ⟨vc, vpw, e1, e2, -, -⟩ := fromInlet_eq b h
  have hcount : b.vectorFunction.isSome.toNat + b.scalarFunction.isSome.toNat + b.constant.isSome.toNat + b.vectorConstant.isSome.toNat +
      b.piecewise.isSome.toNat + b.vectorPiecewise.isSome.toNat = 1 ↔ ∃! k, Present b k := by
    rw [count_one]
    simp only [Option.isSome_iff_exists, Option.isSome_eq_false_iff, Option.isNone_iff_eq_none]
    constructor
    · rintro (h | h | h | h | h | h) <;> obtain ⟨h1, h2, h3, h4, h5, h6⟩ := h
      · exact ⟨.vectorFunction, h1, fun k hk => by cases k <;> simp_all [Present]⟩
      · exact ⟨.scalarFunction, h2, fun k hk => by cases k <;> simp_all [Present]⟩
      · exact ⟨.constant, h3, fun k hk => by cases k <;> simp_all [Present]⟩
      · exact ⟨.vectorConstant, h4, fun k hk => by cases k <;> simp_all [Present]⟩
      · exact ⟨.piecewise, h5, fun k hk => by cases k <;> simp_all [Present]⟩
      · exact ⟨.vectorPiecewise, h6, fun k hk => by cases k <;> simp_all [Present]⟩
    · rintro ⟨k, hk, hu⟩
      have n1 : k ≠ .vectorFunction → b.vectorFunction = none := fun hne => by
        by_contra hc; exact hne (hu .vectorFunction (Option.ne_none_iff_exists'.1 hc)).symm
      have n2 : k ≠ .scalarFunction → b.scalarFunction = none := fun hne => by
        by_contra hc; exact hne (hu .scalarFunction (Option.ne_none_iff_exists'.1 hc)).symm
      have n3 : k ≠ .constant → b.constant = none := fun hne => by
        by_contra hc; exact hne (hu .constant (Option.ne_none_iff_exists'.1 hc)).symm
      have n4 : k ≠ .vectorConstant → b.vectorConstant = none := fun hne => by
        by_contra hc; exact hne (hu .vectorConstant (Option.ne_none_iff_exists'.1 hc)).symm
      have n5 : k ≠ .piecewise → b.piecewise = none := fun hne => by
        by_contra hc; exact hne (hu .piecewise (Option.ne_none_iff_exists'.1 hc)).symm
      have n6 : k ≠ .vectorPiecewise → b.vectorPiecewise = none := fun hne => by
        by_contra hc; exact hne (hu .vectorPiecewise (Option.ne_none_iff_exists'.1 hc)).symm
      cases k <;> simp only [Present] at hk <;> simp_all
  rw [← hcount]
  unfold fromInlet
  rw [e1, e2]
  dsimp only [Res.bind]
  generalize b.vectorFunction.isSome.toNat + b.scalarFunction.isSome.toNat + b.constant.isSome.toNat + b.vectorConstant.isSome.toNat +
      b.piecewise.isSome.toNat + b.vectorPiecewise.isSome.toNat = n
  by_cases h1 : 1 < n
  · rw [if_pos h1]
    refine ⟨⟨fun ⟨o, ho⟩ => (by cases ho), fun h => (by omega)⟩, fun _ => rfl⟩
  · rw [if_neg h1]
    by_cases h0 : n = 0
    · rw [if_pos h0]
      refine ⟨⟨fun ⟨o, ho⟩ => (by cases ho), fun h => (by omega)⟩, fun _ => rfl⟩
    · rw [if_neg h0]
      exact ⟨⟨fun _ => by omega, fun _ => ⟨_, rfl⟩⟩, fun h => absurd (show n = 1 by omega) h⟩

/-- The options an accepted entry turns into. -/
theorem fromInlet_fields (b : Entry VF SF) (h : WellFormed b) (o : Options VF SF) (ho : fromInlet b = .ok o) :
    o.scalarFunction = b.scalarFunction ∧ o.vectorFunction = b.vectorFunction ∧ o.scalarConstant = b.constant ∧
    parseOptVector b.vectorConstant = .ok o.vectorConstant ∧ parseOptTable b.vectorPiecewise = .ok o.vectorPw ∧ o.scalarPw = b.piecewise.getD [] ∧
    o.vectorConstant.isSome = b.vectorConstant.isSome ∧ o.vectorPw.isEmpty = (b.vectorPiecewise.getD []).isEmpty ∧
    o.component = (if b.constant.isSome || b.scalarFunction.isSome || !(b.piecewise.getD []).isEmpty then b.component else none) := by
  obtain ⟨vc, vpw, e1, e2, e3, e4⟩ := fromInlet_eq b h
  unfold fromInlet at ho
  rw [e1, e2] at ho
  dsimp only [Res.bind] at ho
  split_ifs at ho <;> cases ho <;> refine ⟨rfl, rfl, rfl, e1, e2, rfl, e3, e4, ?_⟩ <;> simp_all

/-- **C37, kinds.**  For an accepted entry with non-empty tables: the coefficient is a vector one exactly if its definition is of a vector kind; a
vector coefficient is refused exactly for scalar definitions and a scalar one exactly for vector definitions. -/
theorem C37_kind (b : Entry VF SF) (h : WellFormed b) (hn : NonEmpty b) (o : Options VF SF) (ho : fromInlet b = .ok o) (k : Kind) (hk : Present b k)
    (dim : ℕ) : (o.isVector = true ↔ k.vector) ∧ (o.constructVector dim = .refused ↔ ¬k.vector) ∧ (o.constructScalar = .refused ↔ k.vector) := by
  obtain ⟨f1, f2, f3, -, -, f6, f7, f8, -⟩ := fromInlet_fields b h o ho
  have huniq : ∀ {y : Kind}, Present b y → k = y := fun {y} hy => ((C37_accept b h).1.1 ⟨o, ho⟩).unique hk hy
  have hv : o.isVector = true ↔ k.vector := by
    unfold Options.isVector
    rw [f2, f7, f8]
    have key : (b.vectorFunction.isSome || b.vectorConstant.isSome || !(b.vectorPiecewise.getD []).isEmpty) = true ↔
        (Present b .vectorFunction ∨ Present b .vectorConstant ∨ Present b .vectorPiecewise) := by
      have h6 : (!(b.vectorPiecewise.getD []).isEmpty) = true ↔ Present b .vectorPiecewise := by
        unfold Present
        cases hp : b.vectorPiecewise with
        | none => simp
        | some t =>
          cases t with
          | nil => exact absurd hp hn.2
          | cons e t => simp
      rw [Bool.or_eq_true, Bool.or_eq_true, h6, Option.isSome_iff_exists, Option.isSome_iff_exists]
      unfold Present
      tauto
    rw [key]
    constructor
    · rintro (h | h | h)
      · rw [huniq h]; trivial
      · rw [huniq h]; trivial
      · rw [huniq h]; trivial
    · intro hkv
      cases k <;> simp [Kind.vector] at hkv <;> tauto
  have wu : ∀ (n : ℤ) (l : List (ℤ × ℝ)) (v : List ℝ), writeAll n l v ≠ .refused := by
    intro n l
    induction l with
    | nil => intro v h; cases h
    | cons e l ih =>
      intro v h
      rw [writeAll] at h
      split at h
      · exact ih _ h
      · cases h
  have tu : ∀ (n : ℤ) (l : List (ℤ × ℝ)), table n l ≠ .refused := by
    intro n l h
    unfold table at h
    split at h
    · cases h
    · exact wu _ _ _ h
  have cu : ∀ (i : ℕ) (l : List (ℤ × List ℝ)), componentOf i l ≠ .refused := by
    intro i l
    induction l with
    | nil => intro h; cases h
    | cons e l ih =>
      intro h
      rw [componentOf] at h
      split at h
      · cases h
      · cases hc : componentOf i l with
        | ok r => rw [hc] at h; cases h
        | refused => exact ih hc
        | undefined => rw [hc] at h; cases h
  have ctu : ∀ (n : ℤ) (l : List (ℤ × List ℝ)) (is : List ℕ), componentTables n l is ≠ .refused := by
    intro n l is
    induction is with
    | nil => intro h; cases h
    | cons i is ih =>
      intro h
      rw [componentTables] at h
      cases hc : componentOf i l with
      | refused => exact cu _ _ hc
      | undefined => rw [hc] at h; cases h
      | ok r =>
        rw [hc] at h
        dsimp only [Res.bind] at h
        cases ht : table n r with
        | refused => exact tu _ _ ht
        | undefined => rw [ht] at h; cases h
        | ok t =>
          rw [ht] at h
          dsimp only [Res.bind] at h
          cases hr : componentTables n l is with
          | refused => exact ih hr
          | undefined => rw [hr] at h; cases h
          | ok r' => rw [hr] at h; cases h
  refine ⟨hv, ?_, ?_⟩
  · rw [← hv]
    unfold Options.constructVector
    by_cases hb : o.isVector = true
    · simp only [hb, Bool.not_true, Bool.false_eq_true, if_false, not_true_eq_false, iff_false]
      cases h1 : o.vectorFunction with
      | some f => intro h; cases h
      | none =>
        cases h2 : o.vectorConstant with
        | some f => intro h; cases h
        | none =>
          cases h3 : o.vectorPw with
          | nil =>
            exfalso
            simp [Options.isVector, h1, h2, h3] at hb
          | cons e t =>
            dsimp only [maxElement]
            intro h
            cases hc : componentTables (List.foldl (fun best e => if best.1 < e.1 then e else best) e t).1 (e :: t)
              (List.range (List.foldl (fun best e => if best.1 < e.1 then e else best) e t).2.length) with
            | ok r => rw [hc] at h; cases h
            | refused => exact ctu _ _ _ hc
            | undefined => rw [hc] at h; cases h
    · simp [hb]
  · rw [← hv]
    unfold Options.constructScalar
    by_cases hb : o.isVector = true
    · simp [hb]
    · simp only [hb, Bool.false_eq_true, if_false, iff_false]
      have hnk : ¬k.vector := fun h => hb (hv.2 h)
      cases h1 : o.scalarFunction with
      | some f => intro h; cases h
      | none =>
        cases h2 : o.scalarConstant with
        | some f => intro h; cases h
        | none =>
          cases h3 : o.scalarPw with
          | nil =>
            exfalso
            rw [f1] at h1
            rw [f3] at h2
            rw [f6] at h3
            cases k <;> simp only [Kind.vector, not_true_eq_false, not_false_eq_true] at hnk <;> obtain ⟨x, hx⟩ := hk
            · rw [h1] at hx; cases hx
            · rw [h2] at hx; cases hx
            · rw [hx] at h3
              exact hn.1 (by rw [hx]; exact congrArg some h3)
          | cons e t =>
            dsimp only [maxElement]
            intro h
            cases hc : table (List.foldl (fun best e => if best.1 < e.1 then e else best) e t).1 (e :: t) with
            | ok r => rw [hc] at h; cases h
            | refused => exact tu _ _ hc
            | undefined => rw [hc] at h; cases h

/-- **C37, empty tables, refuted**: an entry whose only definition is an empty piecewise table is accepted but gives neither coefficient. -/
theorem C37_empty_wrong (c : Option ℤ) (dim : ℕ) (t : Bool) :
    let b : Entry VF SF := ⟨none, none, none, none, if t then some [] else none, if t then none else some [], c⟩
    ∃ o, fromInlet b = .ok o ∧ o.constructVector dim = .refused ∧ o.constructScalar = .refused := by
  cases t <;> exact ⟨_, rfl, rfl, rfl⟩

/-- **C37, component.**  Kept exactly for scalar definitions (of a non-empty table). -/
theorem C37_component (b : Entry VF SF) (h : WellFormed b) (hn : NonEmpty b) (o : Options VF SF) (ho : fromInlet b = .ok o) (k : Kind)
    (hk : Present b k) : (¬k.vector → o.component = b.component) ∧ (k.vector → o.component = none) := by
  obtain ⟨-, -, -, -, -, -, -, -, f9⟩ := fromInlet_fields b h o ho
  have huniq : ∀ {y : Kind}, Present b y → k = y := fun {y} hy => ((C37_accept b h).1.1 ⟨o, ho⟩).unique hk hy
  rw [f9]
  constructor
  · intro hv
    rw [if_pos]
    cases k <;> simp only [Kind.vector, not_true_eq_false, not_false_eq_true] at hv <;> obtain ⟨x, hx⟩ := hk
    · simp [hx]
    · simp [hx]
    · cases x with
      | nil => exact absurd hx hn.1
      | cons e t => simp [hx]
  · intro hv
    rw [if_neg]
    intro hc
    simp only [Bool.or_eq_true, Option.isSome_iff_exists] at hc
    rcases hc with (hc | hc) | hc
    · rw [huniq (y := .constant) hc] at hv; exact hv
    · rw [huniq (y := .scalarFunction) hc] at hv; exact hv
    · cases hp : b.piecewise with
      | none => rw [hp] at hc; simp at hc
      | some t => rw [huniq (y := .piecewise) ⟨t, hp⟩] at hv; exact hv

/-! ## Piecewise constants -/

theorem foldl_max {α : Type} (l : List (ℤ × α)) (e : ℤ × α) : let m := l.foldl (fun best e => if best.1 < e.1 then e else best) e
    m ∈ e :: l ∧ ∀ x ∈ e :: l, x.1 ≤ m.1 := by
  induction l generalizing e with
  | nil => simp
  | cons y l ih =>
    intro m
    obtain ⟨h1, h2⟩ := ih (if e.1 < y.1 then y else e)
    have hm : m = l.foldl (fun best e => if best.1 < e.1 then e else best) (if e.1 < y.1 then y else e) := rfl
    rw [← hm] at h1 h2
    have h3 := h2 _ (by simp : (if e.1 < y.1 then y else e) ∈ (if e.1 < y.1 then y else e) :: l)
    constructor
    · rw [List.mem_cons] at h1
      rcases h1 with h1 | h1
      · rw [h1]; split <;> simp
      · simp [h1]
    · intro x hx
      rw [List.mem_cons, List.mem_cons] at hx
      rcases hx with rfl | rfl | hx
      · split at h3 <;> omega
      · split at h3 <;> omega
      · exact h2 x (by simp [hx])

theorem maxElement_spec {α : Type} (l : List (ℤ × α)) (h : l ≠ []) : ∃ m, maxElement l = some m ∧ m ∈ l ∧ ∀ x ∈ l, x.1 ≤ m.1 := by
  cases l with
  | nil => exact absurd rfl h
  | cons e l => exact ⟨_, rfl, foldl_max l e⟩

/-- What a table means: the value given for the attribute, zero elsewhere. -/
def Means (entries : List (ℤ × ℝ)) (a : ℤ) (x : ℝ) : Prop := (a, x) ∈ entries ∨ (∀ y, (a, y) ∉ entries) ∧ x = 0

theorem writeAll_spec (n : ℤ) (l : List (ℤ × ℝ)) (hk : ∀ e ∈ l, 1 ≤ e.1 ∧ e.1 ≤ n) (hd : (l.map Prod.fst).Nodup) (v : List ℝ) (hv : (v.length : ℤ) = n) :
    ∃ w, writeAll n l v = .ok w ∧ w.length = v.length ∧
      ∀ a : ℤ, 1 ≤ a → a ≤ n → (∀ x, (a, x) ∈ l → w[(a - 1).toNat]? = some x) ∧ ((∀ x, (a, x) ∉ l) → w[(a - 1).toNat]? = v[(a - 1).toNat]?) := by
  induction l generalizing v with
  | nil => exact ⟨v, rfl, rfl, fun a _ _ => ⟨fun x hx => (by simp at hx), fun _ => rfl⟩⟩
  | cons e l ih =>
    obtain ⟨k, x0⟩ := e
    have hk0 := hk (k, x0) (by simp)
    simp only [List.map_cons, List.nodup_cons] at hd
    obtain ⟨w, hw, hl, hw2⟩ := ih (fun e he => hk e (by simp [he])) hd.2 (v.set (k - 1).toNat x0) (by simpa using hv)
    refine ⟨w, ?_, by simpa using hl, ?_⟩
    · rw [writeAll, if_pos hk0, hw]
    · intro a h1 h2
      obtain ⟨g1, g2⟩ := hw2 a h1 h2
      constructor
      · intro x hx
        rw [List.mem_cons] at hx
        rcases hx with hx | hx
        · obtain ⟨rfl, rfl⟩ := Prod.mk.inj hx
          rw [g2]
          · rw [List.getElem?_set_self (by dsimp only at hk0; omega)]
          · intro y hy
            exact hd.1 (List.mem_map.2 ⟨_, hy, rfl⟩)
        · exact g1 x hx
      · intro hno
        have hne : k ≠ a := fun h => hno x0 (by simp [h])
        rw [g2 fun y hy => hno y (by simp [hy]), List.getElem?_set_ne]
        dsimp only at hk0
        omega

theorem table_spec (l : List (ℤ × ℝ)) (n : ℤ) (hn : 0 ≤ n) (hk : ∀ e ∈ l, 1 ≤ e.1 ∧ e.1 ≤ n) (hd : (l.map Prod.fst).Nodup) :
    ∃ t, table n l = .ok t ∧ (t.length : ℤ) = n ∧ ∀ a : ℤ, 1 ≤ a → a ≤ n → ∃ x, pwEval t a = .ok x ∧ Means l a x := by
  obtain ⟨w, hw, hl, h⟩ := writeAll_spec n l hk hd (List.replicate n.toNat 0) (by simp; omega)
  rw [List.length_replicate] at hl
  refine ⟨w, by rw [table, if_neg (by omega), hw], by omega, ?_⟩
  intro a h1 h2
  obtain ⟨g1, g2⟩ := h a h1 h2
  by_cases hx : ∃ x, (a, x) ∈ l
  · obtain ⟨x, hx⟩ := hx
    refine ⟨x, ?_, Or.inl hx⟩
    rw [pwEval, if_neg (by omega), g1 x hx]
  · push Not at hx
    refine ⟨0, ?_, Or.inr ⟨hx, rfl⟩⟩
    rw [pwEval, if_neg (by omega), g2 hx, List.getElem?_replicate, if_pos (by omega)]

/-- Options with only a scalar table. -/
def scalarOptions (l : List (ℤ × ℝ)) (c : Option ℤ) : Options VF SF := ⟨none, none, none, none, l, [], c⟩

/-- Options with only a vector table. -/
def vectorOptions (l : List (ℤ × List ℝ)) (c : Option ℤ) : Options VF SF := ⟨none, none, none, none, [], l, c⟩

/-- **C37, scalar piecewise constants** (partial: attributes up to the largest one in the table; attributes in the table start at one). -/
theorem C37_scalar_partial (l : List (ℤ × ℝ)) (c : Option ℤ) (hne : l ≠ []) (hd : (l.map Prod.fst).Nodup) (hk : ∀ e ∈ l, 1 ≤ e.1) :
    ∃ t, (scalarOptions l c : Options VF SF).constructScalar = .ok (.piecewise t) ∧
      ∀ a, 1 ≤ a → (∃ e ∈ l, a ≤ e.1) → ∃ x, pwEval t a = .ok x ∧ Means l a x := by
  obtain ⟨m, hm, hml, hmax⟩ := maxElement_spec l hne
  have h1 := hk m hml
  obtain ⟨t, ht, -, h⟩ := table_spec l m.1 (by omega) (fun e he => ⟨hk e he, hmax e he⟩) hd
  refine ⟨t, ?_, ?_⟩
  · simp only [Options.constructScalar, scalarOptions, Options.isVector]
    simp [hm, ht, Res.bind]
  · rintro a ha ⟨e, he, hae⟩
    exact h a ha (hae.trans (hmax e he))

/-- **C37, attributes above the table, refuted**: the coefficient reads past the end of its table instead of returning zero. -/
theorem C37_above_wrong (l : List (ℤ × ℝ)) (c : Option ℤ) (t : List ℝ) (hd : (l.map Prod.fst).Nodup) (hk : ∀ e ∈ l, 1 ≤ e.1)
    (h : (scalarOptions l c : Options VF SF).constructScalar = .ok (.piecewise t)) (a : ℤ) (ha : ∀ e ∈ l, e.1 < a) (ha1 : 1 ≤ a) :
    pwEval t a = .undefined := by
  by_cases hne : l = []
  · subst hne
    exfalso
    simp [scalarOptions, Options.constructScalar, Options.isVector, maxElement] at h
  · obtain ⟨m, hm, hml, hmax⟩ := maxElement_spec l hne
    have h1 := hk m hml
    obtain ⟨t', ht, hlen, -⟩ := table_spec l m.1 (by omega) (fun e he => ⟨hk e he, hmax e he⟩) hd
    have e : t' = t := by
      simp only [Options.constructScalar, scalarOptions, Options.isVector] at h
      simpa [hm, ht, Res.bind] using h
    subst e
    have := ha m hml
    rw [pwEval, if_neg (by omega), List.getElem?_eq_none (by omega)]

/-- **C37, attributes below one**: a table with such a key cannot be turned into a coefficient; the constructor writes before its vector. -/
theorem C37_key_wrong (l : List (ℤ × ℝ)) (c : Option ℤ) (h : ∃ e ∈ l, e.1 < 1) :
    (scalarOptions l c : Options VF SF).constructScalar = .undefined := by
  have hne : l ≠ [] := by
    rintro rfl
    obtain ⟨e, he, -⟩ := h
    simp at he
  obtain ⟨m, hm, -, -⟩ := maxElement_spec l hne
  have key : ∀ (l : List (ℤ × ℝ)) (v : List ℝ), (∃ e ∈ l, e.1 < 1) → writeAll m.1 l v = .undefined := by
    intro l
    induction l with
    | nil => rintro v ⟨e, he, -⟩; simp at he
    | cons e l ih =>
      rintro v ⟨e', he, hlt⟩
      rw [List.mem_cons] at he
      rw [writeAll]
      rcases he with rfl | he
      · rw [if_neg (by omega)]
      · split
        · exact ih _ ⟨e', he, hlt⟩
        · rfl
  have ht : table m.1 l = .undefined := by
    unfold table
    split
    · rfl
    · exact key _ _ h
  simp only [Options.constructScalar, scalarOptions, Options.isVector]
  simp [hm, ht, Res.bind]

theorem componentOf_spec (i : ℕ) (l : List (ℤ × List ℝ)) (hl : ∀ e ∈ l, i < e.2.length) :
    ∃ es, componentOf i l = .ok es ∧ es.map Prod.fst = l.map Prod.fst ∧ ∀ a x, (a, x) ∈ es ↔ ∃ v, (a, v) ∈ l ∧ v[i]? = some x := by
  induction l with
  | nil => exact ⟨[], rfl, rfl, fun a x => by simp⟩
  | cons e l ih =>
    obtain ⟨k, v⟩ := e
    obtain ⟨es, h1, h2, h3⟩ := ih fun e he => hl e (by simp [he])
    have hi : i < v.length := hl (k, v) (by simp)
    refine ⟨(k, v[i]) :: es, ?_, by simp [h2], ?_⟩
    · rw [componentOf, List.getElem?_eq_getElem hi]
      dsimp only
      rw [h1]
      rfl
    · intro a x
      rw [List.mem_cons, h3]
      constructor
      · rintro (h | ⟨w, hw, hx⟩)
        · obtain ⟨rfl, rfl⟩ := Prod.mk.inj h
          exact ⟨v, by simp, List.getElem?_eq_getElem hi⟩
        · exact ⟨w, by simp [hw], hx⟩
      · rintro ⟨w, hw, hx⟩
        rw [List.mem_cons] at hw
        rcases hw with hw | hw
        · obtain ⟨rfl, rfl⟩ := Prod.mk.inj hw
          left
          rw [List.getElem?_eq_getElem hi] at hx
          rw [Option.some.inj hx]
        · exact Or.inr ⟨w, hw, hx⟩

/-- **C37, vector piecewise constants** (partial: as before, and all vectors of the same length `d`): `d` components, each the piecewise constant of
that component. -/
theorem C37_vector_partial (l : List (ℤ × List ℝ)) (c : Option ℤ) (d dim : ℕ) (hne : l ≠ []) (hd : (l.map Prod.fst).Nodup) (hk : ∀ e ∈ l, 1 ≤ e.1)
    (hl : ∀ e ∈ l, e.2.length = d) :
    ∃ ts, (vectorOptions l c : Options VF SF).constructVector dim = .ok (.piecewise ts) ∧ ts.length = d ∧
      ∀ (i : ℕ) (t : List ℝ), ts[i]? = some t → ∀ a, 1 ≤ a → (∃ e ∈ l, a ≤ e.1) →
        ∃ x, pwEval t a = .ok x ∧ ((∃ v, (a, v) ∈ l ∧ v[i]? = some x) ∨ (∀ v, (a, v) ∉ l) ∧ x = 0) := by
  obtain ⟨m, hm, hml, hmax⟩ := maxElement_spec l hne
  have h1 := hk m hml
  have key : ∀ is : List ℕ, (∀ i ∈ is, i < d) → ∃ ts, componentTables m.1 l is = .ok ts ∧ ts.length = is.length ∧
      ∀ (j i : ℕ) (t : List ℝ), is[j]? = some i → ts[j]? = some t → ∀ a, 1 ≤ a → a ≤ m.1 →
        ∃ x, pwEval t a = .ok x ∧ ((∃ v, (a, v) ∈ l ∧ v[i]? = some x) ∨ (∀ v, (a, v) ∉ l) ∧ x = 0) := by
    intro is
    induction is with
    | nil => intro _; exact ⟨[], rfl, rfl, fun j i t h => by simp at h⟩
    | cons i is ih =>
      intro hi
      obtain ⟨ts, g1, g2, g3⟩ := ih fun j hj => hi j (by simp [hj])
      have hid := hi i (by simp)
      obtain ⟨es, c1, c2, c3⟩ := componentOf_spec i l fun e he => by rw [hl e he]; exact hid
      have hes : ∀ e ∈ es, 1 ≤ e.1 ∧ e.1 ≤ m.1 := by
        intro e he
        obtain ⟨v, hv, -⟩ := (c3 e.1 e.2).1 he
        exact ⟨hk _ hv, hmax _ hv⟩
      obtain ⟨t, t1, -, t3⟩ := table_spec es m.1 (by omega) hes (by rw [c2]; exact hd)
      refine ⟨t :: ts, ?_, by simp [g2], ?_⟩
      · rw [componentTables, c1]
        dsimp only [Res.bind]
        rw [t1]
        dsimp only [Res.bind]
        rw [g1]
      · intro j i' t' hj ht a ha1 ha2
        cases j with
        | zero =>
          simp only [List.getElem?_cons_zero, Option.some.injEq] at hj ht
          subst hj ht
          obtain ⟨x, hx, hmean⟩ := t3 a ha1 ha2
          refine ⟨x, hx, ?_⟩
          rcases hmean with h | ⟨h, h0⟩
          · exact Or.inl ((c3 a x).1 h)
          · refine Or.inr ⟨fun v hv => ?_, h0⟩
            have hlen : i < v.length := by rw [hl _ hv]; exact hid
            exact h v[i] ((c3 a _).2 ⟨v, hv, List.getElem?_eq_getElem hlen⟩)
        | succ j =>
          rw [List.getElem?_cons_succ] at hj ht
          exact g3 j i' t' hj ht a ha1 ha2
  obtain ⟨ts, g1, g2, g3⟩ := key (List.range m.2.length) fun i hi => by rw [← hl m hml]; exact List.mem_range.1 hi
  rw [List.length_range, hl m hml] at g2
  refine ⟨ts, ?_, g2, ?_⟩
  · have hemp : l.isEmpty = false := by cases l with | nil => exact absurd rfl hne | cons e l => rfl
    simp only [Options.constructVector, vectorOptions, Options.isVector]
    simp [hm, g1, Res.bind, hemp]
  · rintro i t ht a ha ⟨e, he, hae⟩
    have hi : i < d := by
      rw [← g2]
      exact (List.getElem?_eq_some_iff.1 ht).1
    exact g3 i i t (by rw [List.getElem?_range (by rw [hl m hml]; exact hi)]) ht a ha (hae.trans (hmax e he))

/-- **C37, vectors of different lengths, refuted**: an entry shorter than that of the largest attribute is read past its end. -/
theorem C37_length_wrong (l : List (ℤ × List ℝ)) (c : Option ℤ) (dim : ℕ) (m e : ℤ × List ℝ) (hm : maxElement l = some m) (he : e ∈ l)
    (hlt : e.2.length < m.2.length) : (vectorOptions l c : Options VF SF).constructVector dim = .undefined := by
  have hc : ∀ (l : List (ℤ × List ℝ)), e ∈ l → ∀ i, e.2.length ≤ i → componentOf i l = .undefined := by
    intro l
    induction l with
    | nil => intro h; simp at h
    | cons e' l ih =>
      intro h i hi
      rw [componentOf]
      rw [List.mem_cons] at h
      rcases h with rfl | h
      · rw [List.getElem?_eq_none hi]
      · cases e'.2[i]? with
        | none => rfl
        | some x => rw [ih h i hi]; rfl
  have hnr : ∀ (i : ℕ) (l : List (ℤ × List ℝ)), componentOf i l ≠ .refused := by
    intro i l
    induction l with
    | nil => intro h; cases h
    | cons e l ih =>
      intro h
      rw [componentOf] at h
      split at h
      · cases h
      · cases hc : componentOf i l with
        | ok r => rw [hc] at h; cases h
        | refused => exact ih hc
        | undefined => rw [hc] at h; cases h
  have htr : ∀ (n : ℤ) (l : List (ℤ × ℝ)), table n l ≠ .refused := by
    intro n l h
    unfold table at h
    split at h
    · cases h
    · have : ∀ (l : List (ℤ × ℝ)) (v : List ℝ), writeAll n l v ≠ .refused := by
        intro l
        induction l with
        | nil => intro v h; cases h
        | cons e l ih =>
          intro v h
          rw [writeAll] at h
          split at h
          · exact ih _ h
          · cases h
      exact this _ _ h
  have key : ∀ is : List ℕ, e.2.length ∈ is → componentTables m.1 l is = .undefined := by
    intro is
    induction is with
    | nil => intro h; simp at h
    | cons i is ih =>
      intro h
      rw [componentTables]
      rw [List.mem_cons] at h
      rcases h with rfl | h
      · rw [hc l he _ le_rfl]
        rfl
      · cases h1 : componentOf i l with
        | refused => exact absurd h1 (hnr _ _)
        | undefined => rfl
        | ok es =>
          dsimp only [Res.bind]
          cases h2 : table m.1 es with
          | refused => exact absurd h2 (htr _ _)
          | undefined => rfl
          | ok t =>
            dsimp only [Res.bind]
            rw [ih h]
  have hemp : l.isEmpty = false := by cases l with | nil => simp at he | cons e l => rfl
  simp only [Options.constructVector, vectorOptions, Options.isVector]
  simp [hm, key _ (List.mem_range.2 hlt), Res.bind, hemp]

/-- **C37, boundary attributes**: the set of the values given, each once. -/
theorem C37_attrs (l : List (ℤ × ℤ)) : (∀ a, a ∈ attrSet l ↔ ∃ k, (k, a) ∈ l) ∧ (attrSet l).Nodup := by
  have key : ∀ (l : List (ℤ × ℤ)) (s : List ℤ), s.Nodup →
      (∀ a, a ∈ l.foldl (fun s e => if e.2 ∈ s then s else s ++ [e.2]) s ↔ a ∈ s ∨ ∃ k, (k, a) ∈ l) ∧
      (l.foldl (fun s e => if e.2 ∈ s then s else s ++ [e.2]) s).Nodup := by
    intro l
    induction l with
    | nil => intro s hs; exact ⟨fun a => by simp, hs⟩
    | cons e l ih =>
      intro s hs
      rw [List.foldl_cons]
      by_cases he : e.2 ∈ s
      · rw [if_pos he]
        obtain ⟨h1, h2⟩ := ih s hs
        refine ⟨fun a => ?_, h2⟩
        rw [h1]
        constructor
        · rintro (h | ⟨k, h⟩)
          · exact Or.inl h
          · exact Or.inr ⟨k, by simp [h]⟩
        · rintro (h | ⟨k, h⟩)
          · exact Or.inl h
          · rw [List.mem_cons] at h
            rcases h with h | h
            · left; rw [← h] at he; exact he
            · exact Or.inr ⟨k, h⟩
      · rw [if_neg he]
        obtain ⟨h1, h2⟩ := ih (s ++ [e.2]) (by
          rw [List.nodup_append]
          refine ⟨hs, by simp, ?_⟩
          intro x hx y hy hxy
          rw [List.mem_singleton] at hy
          rw [hxy, hy] at hx
          exact he hx)
        refine ⟨fun a => ?_, h2⟩
        rw [h1]
        constructor
        · rintro (h | ⟨k, h⟩)
          · rw [List.mem_append, List.mem_singleton] at h
            rcases h with h | rfl
            · exact Or.inl h
            · exact Or.inr ⟨e.1, by simp⟩
          · exact Or.inr ⟨k, by simp [h]⟩
        · rintro (h | ⟨k, h⟩)
          · exact Or.inl (by simp [h])
          · rw [List.mem_cons] at h
            rcases h with h | h
            · left; rw [← h]; simp
            · exact Or.inr ⟨k, h⟩
  obtain ⟨h1, h2⟩ := key l [] List.nodup_nil
  refine ⟨fun a => ?_, h2⟩
  have := h1 a
  simp only [List.not_mem_nil, false_or] at this
  exact this

/-! ### Examples -/

/-- The table `{[1] = 2.5, [3] = 3}` gives 2.5, 0, 3 on attributes 1, 2, 3 and is undefined on 4. -/
example : ∃ t, (scalarOptions [(1, 5 / 2), (3, 3)] none : Options VF SF).constructScalar = .ok (.piecewise t) ∧
    pwEval t 1 = .ok (5 / 2) ∧ pwEval t 2 = .ok 0 ∧ pwEval t 4 = .undefined := ⟨[5 / 2, 0, 3], rfl, rfl, rfl, rfl⟩

example : WellFormed (⟨none, none, none, some ⟨some 0, some 1, none⟩, none, none, none⟩ : Entry VF SF) := by
  refine ⟨fun v hv => ?_, fun t ht => by cases ht⟩
  cases hv
  simp

end Serac.C37
