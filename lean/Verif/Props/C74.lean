import Verif.Model.Fields
import Mathlib.Tactic.Ring
import Mathlib.Tactic.NormNum
import Mathlib.Tactic.Linarith
import Mathlib.Algebra.BigOperators.Field
import Mathlib.Algebra.BigOperators.Ring.Finset
import Mathlib.Algebra.BigOperators.Fin
import Mathlib.Data.Fin.VecNotation
import Mathlib.Tactic.FinCases
/-!
# C74: States and duals are values, their local views agree with them, and reductions do not depend on the partition

Spec.  `meaning`: a program over states and duals read with value semantics.  A variable holds a name and a true vector; constructing and
assigning copy the vector; an assignment keeps the name of its target; a vector of another space is refused; a variable that was moved from
may only go out of scope.  Editing through the local view is described entry by entry: a state's local entry is (up to the sign of an
orientation) its true entry and the owner's entry comes back; a dual's true entry is the signed sum of its local entries.
-/

namespace Serac.C74
open Serac.Fields

variable {M : Tables}

/-- What mfem guarantees about a conforming space: each true dof is read from a local copy of itself that carries no sign. -/
structure Ok (K : Layout) : Prop where
  own : ∀ t, K.tdof (K.own t) = t
  plus : ∀ t, K.sign (K.own t) = 1
  rank : ∀ t, (K.own t).1 = t.1
  unit : ∀ l, K.sign l * K.sign l = 1

/-- Name and true vector; the vector is unspecified after a move. -/
abbrev Val (M : Tables) : Type := String × Option (TVec M)

open Classical in
/-- True entries of a state after its local entries were edited by `f`. -/
noncomputable def editState (K : Layout) (f : (K.Loc → ℝ) → (K.Loc → ℝ)) (v : K.True → ℝ) : K.True → ℝ :=
  fun t => f (fun l => K.sign l * v (K.tdof l)) (K.own t)

open Classical in
/-- True entries of a dual after its local entries were edited by `f`: the owner's copy starts with the entry, the others with zero. -/
noncomputable def editDual (K : Layout) (f : (K.Loc → ℝ) → (K.Loc → ℝ)) (v : K.True → ℝ) : K.True → ℝ :=
  fun t => ∑ l ∈ Finset.univ.filter (fun l => K.tdof l = t),
    K.sign l * f (fun l' => if K.own (K.tdof l') = l' then v (K.tdof l') else 0) l

open Classical in
/-- Value semantics of one operation. `ub`: the program has no meaning. -/
noncomputable def meaning (ord : Bool) (kind : ℕ → Kind) (op : Op M) (a : ℕ → Option (Val M)) : Res (ℕ → Option (Val M)) :=
  match op with
  | .make x s n =>
    match a x with
    | none => if 1 < s.vdim → s.byVDIM = ord then .ok (put a x (some (n, some ⟨s, fun _ => 0⟩))) else .error
    | some _ => .ub
  | .copy x y =>
    match a x, a y with
    | none, some (n, some v) => if kind x = kind y then .ok (put a x (some (n, some v))) else .ub
    | _, _ => .ub
  | .move x y =>
    match a x, a y with
    | none, some (n, some v) => if kind x = kind y then .ok (put (put a x (some (n, some v))) y (some (n, none))) else .ub
    | _, _ => .ub
  | .assign x y =>
    match a x, a y with
    | some (n, some v), some (_, some w) =>
      if kind x = kind y then (if v.1 = w.1 then .ok (put a x (some (n, some w))) else .error) else .ub
    | _, _ => .ub
  | .moveAssign x y =>
    match a x, a y with
    | some (n, some v), some (n', some w) =>
      if kind x = kind y ∧ x ≠ y then
        (if v.1 = w.1 then .ok (put (put a x (some (n, some w))) y (some (n', none))) else .error)
      else .ub
    | _, _ => .ub
  | .const x c =>
    match a x with
    | some (n, some v) => .ok (put a x (some (n, some ⟨v.1, fun _ => c⟩)))
    | _ => .ub
  | .hypre x w =>
    match a x with
    | some (n, some v) =>
      if ∀ r : Fin (M v.1).ranks, w.size r = (M v.1).size r then .ok (put a x (some (n, some ⟨v.1, fun t => w.val t.1 t.2⟩))) else .error
    | _ => .ub
  | .vector x w =>
    match a x with
    | some (n, some v) =>
      if ∀ r : Fin (M v.1).ranks, w.size r = (M v.1).size r then .ok (put a x (some (n, some ⟨v.1, fun t => w.val t.1 t.2⟩))) else .ub
    | _ => .ub
  | .look x =>
    match a x with
    | some (_, some _) => .ok a
    | _ => .ub
  | .edit x f =>
    match a x with
    | some (n, some v) =>
      match kind x with
      | .state => .ok (put a x (some (n, some ⟨v.1, editState (M v.1) (f v.1) v.2⟩)))
      | .dual => .ok (put a x (some (n, some ⟨v.1, editDual (M v.1) (f v.1) v.2⟩)))
    | _ => .ub
  | .drop x =>
    match a x with
    | some _ => .ok (put a x none)
    | none => .ub

/-- Value semantics of a program. -/
noncomputable def meanings (ord : Bool) (kind : ℕ → Kind) : List (Op M) → (ℕ → Option (Val M)) → Res (ℕ → Option (Val M))
  | [], a => .ok a
  | op :: ops, a =>
    match meaning ord kind op a with
    | .ok a' => meanings ord kind ops a'
    | .error => .error
    | .ub => .ub

/-- The operation is not one of the two moves of a dual. -/
def Safe (kind : ℕ → Kind) : Op M → Prop
  | .move _ y => kind y = .state
  | .moveAssign _ y => kind y = .state
  | _ => True

/-! ### Views -/

theorem own_inj {K : Layout} (h : Ok K) {s t : K.True} (e : K.own s = K.own t) : s = t := by
  rw [← h.own s, ← h.own t, e]

theorem spread_eq {K : Layout} (h : Ok K) (v : K.True → ℝ) (l : K.Loc) :
    K.spread v l = if K.own (K.tdof l) = l then v (K.tdof l) else 0 := by
  unfold Layout.spread
  by_cases hl : K.own (K.tdof l) = l
  · rw [if_pos hl, Finset.sum_eq_single (K.tdof l)]
    · rw [if_pos hl]
    · intro t _ ht
      rw [if_neg]
      intro e
      apply ht
      rw [← h.own t, e]
    · intro ht; exact absurd (Finset.mem_univ _) ht
  · rw [if_neg hl]
    apply Finset.sum_eq_zero
    intro t _
    rw [if_neg]
    intro e
    apply hl
    rw [← e, h.own]

theorem edit_state {K : Layout} (f : (K.Loc → ℝ) → (K.Loc → ℝ)) (v : K.True → ℝ) :
    setFrom K .state (f (fill K .state v)) = editState K f v := rfl

theorem edit_dual {K : Layout} (h : Ok K) (f : (K.Loc → ℝ) → (K.Loc → ℝ)) (v : K.True → ℝ) :
    setFrom K .dual (f (fill K .dual v)) = editDual K f v := by
  funext t
  have e : fill K .dual v = fun l' => if K.own (K.tdof l') = l' then v (K.tdof l') else 0 := by
    funext l; exact spread_eq h v l
  show K.assemble _ t = _
  rw [e]
  unfold Layout.assemble editDual
  rw [Finset.sum_filter]

/-! ### The invariant of the memory -/

/-- One object in the memory. -/
structure Good (ord : Bool) (m : Mem M) (o : Obj M) : Prop where
  full : ∀ v, o.val = some v → admissible ord v.1 = true ∧ ∃ i, o.space = some i ∧ ∀ z, o.view = some z → z.1 = i
  live : ∀ i, o.space = some i → m.live i = true ∧ i < m.next

/-- The memory. -/
structure Inv (ord : Bool) (m : Mem M) : Prop where
  good : ∀ x o, m.objs x = some o → Good ord m o
  apart : ∀ x y o p i, m.objs x = some o → m.objs y = some p → o.space = some i → p.space = some i → x = y

/-- The memory holds what the value semantics says. -/
def Rel (g : ℕ → Option (Obj M)) (a : ℕ → Option (Val M)) : Prop :=
  ∀ x, (a x = none → g x = none) ∧
    ∀ n ov, a x = some (n, ov) → ∃ o, g x = some o ∧ ∀ v, ov = some v → o.name = n ∧ o.val = some v

theorem put_same {α : Type} (g : ℕ → Option α) (x : ℕ) (o : Option α) : put g x o x = o := by simp [put]

theorem put_other {α : Type} (g : ℕ → Option α) {x y : ℕ} (o : Option α) (h : y ≠ x) : put g x o y = g y := by simp [put, h]

theorem sameSpace_iff (a b : Space) : sameSpace a b = true ↔ a = b := by
  obtain ⟨m, c, d, o⟩ := a
  obtain ⟨m', c', d', o'⟩ := b
  simp [sameSpace, and_assoc]

theorem admissible_iff (ord : Bool) (s : Space) : admissible ord s = true ↔ (1 < s.vdim → s.byVDIM = ord) := by
  unfold admissible
  by_cases h : 1 < s.vdim <;> simp [h]

theorem Rel.put {g : ℕ → Option (Obj M)} {a : ℕ → Option (Val M)} (h : Rel g a) (x : ℕ) (o : Obj M) (n : String) (ov : Option (TVec M))
    (ho : ∀ v, ov = some v → o.name = n ∧ o.val = some v) : Rel (Fields.put g x (some o)) (Fields.put a x (some (n, ov))) := by
  intro y
  by_cases hy : y = x
  · subst hy
    rw [put_same, put_same]
    refine ⟨fun e => by simp at e, ?_⟩
    intro n' ov' e
    obtain ⟨rfl, rfl⟩ := Prod.mk.inj (Option.some.inj e)
    exact ⟨o, rfl, ho⟩
  · rw [put_other _ _ hy, put_other _ _ hy]
    exact h y

/-- Changing the object of a variable without touching what the value semantics sees. -/
theorem Rel.same {g : ℕ → Option (Obj M)} {a : ℕ → Option (Val M)} (h : Rel g a) (x : ℕ) (o o' : Obj M) (hx : g x = some o)
    (en : o'.name = o.name) (ev : o'.val = o.val) : Rel (Fields.put g x (some o')) a := by
  intro y
  by_cases hy : y = x
  · subst hy
    rw [put_same]
    refine ⟨fun e => ?_, ?_⟩
    · have := (h y).1 e
      rw [hx] at this
      exact absurd this (by simp)
    · intro n ov e
      obtain ⟨o₂, h₂, h₃⟩ := (h y).2 n ov e
      rw [hx] at h₂
      obtain rfl := Option.some.inj h₂
      exact ⟨o', rfl, fun v hv => ⟨en.trans (h₃ v hv).1, ev.trans (h₃ v hv).2⟩⟩
  · rw [put_other _ _ hy]
    exact h y

theorem Good.mono {ord : Bool} {m m' : Mem M} {o : Obj M} (h : Good ord m o) (hl : ∀ i, m.live i = true → i < m.next → m'.live i = true ∧ i < m'.next) :
    Good ord m' o := ⟨h.full, fun i hi => hl i (h.live i hi).1 (h.live i hi).2⟩

/-- Replacing an object by one with the same space object. -/
theorem Inv.set {ord : Bool} {m : Mem M} (h : Inv ord m) (x : ℕ) (a o : Obj M) (ha : m.objs x = some a) (hs : o.space = a.space)
    (hf : ∀ v, o.val = some v → admissible ord v.1 = true ∧ ∃ i, o.space = some i ∧ ∀ z, o.view = some z → z.1 = i) :
    Inv ord (m.set x o) := by
  refine ⟨?_, ?_⟩
  · intro y p hp
    by_cases hy : y = x
    · subst hy
      have : p = o := by
        have e : (m.set y o).objs y = some o := put_same _ _ _
        rw [e] at hp; exact (Option.some.inj hp).symm
      subst this
      exact ⟨hf, fun i hi => (h.good y a ha).live i (hs ▸ hi)⟩
    · have e : (m.set x o).objs y = m.objs y := put_other _ _ hy
      rw [e] at hp
      exact ⟨(h.good y p hp).full, (h.good y p hp).live⟩
  · have key : ∀ y p i, (m.set x o).objs y = some p → p.space = some i → ∃ q, m.objs y = some q ∧ q.space = some i := by
      intro y p i hp hi
      by_cases hy : y = x
      · subst hy
        have e : (m.set y o).objs y = some o := put_same _ _ _
        rw [e] at hp
        obtain rfl := Option.some.inj hp
        exact ⟨a, ha, hs ▸ hi⟩
      · have e : (m.set x o).objs y = m.objs y := put_other _ _ hy
        rw [e] at hp
        exact ⟨p, hp, hi⟩
    intro y z p q i hp hq hpi hqi
    obtain ⟨p', hp', hpi'⟩ := key y p i hp hpi
    obtain ⟨q', hq', hqi'⟩ := key z q i hq hqi
    exact h.apart y z p' q' i hp' hq' hpi' hqi'

/-- A new object with a new space object. -/
theorem Inv.construct {ord : Bool} {m : Mem M} (h : Inv ord m) (x : ℕ) (v : TVec M) (n : String) (view : Option (ℕ × LVec M))
    (hv : admissible ord v.1 = true) (hw : ∀ z, view = some z → z.1 = m.next) :
    Inv ord (m.alloc.set x { name := n, val := some v, space := some m.next, view := view }) := by
  have hl : ∀ i, m.live i = true → i < m.next → m.alloc.live i = true ∧ i < m.alloc.next := by
    intro i hi hn
    refine ⟨?_, Nat.lt_succ_of_lt hn⟩
    show (if i = m.next then true else m.live i) = true
    rw [if_neg (Nat.ne_of_lt hn), hi]
  refine ⟨?_, ?_⟩
  · intro y p hp
    by_cases hy : y = x
    · subst hy
      have e : (m.alloc.set y { name := n, val := some v, space := some m.next, view := view }).objs y = some _ := put_same _ _ _
      rw [e] at hp
      obtain rfl := Option.some.inj hp
      refine ⟨?_, ?_⟩
      · intro w hw'
        obtain rfl := Option.some.inj hw'
        exact ⟨hv, m.next, rfl, hw⟩
      · intro i hi
        obtain rfl := Option.some.inj hi
        refine ⟨?_, Nat.lt_succ_self _⟩
        show (if m.next = m.next then true else m.live m.next) = true
        rw [if_pos rfl]
    · have e : (m.alloc.set x { name := n, val := some v, space := some m.next, view := view }).objs y = m.objs y := put_other _ _ hy
      rw [e] at hp
      exact ⟨(h.good y p hp).full, fun i hi => hl i ((h.good y p hp).live i hi).1 ((h.good y p hp).live i hi).2⟩
  · have key : ∀ y p i, (m.alloc.set x { name := n, val := some v, space := some m.next, view := view }).objs y = some p →
        p.space = some i → (y = x ∧ i = m.next) ∨ (y ≠ x ∧ m.objs y = some p ∧ i < m.next) := by
      intro y p i hp hi
      by_cases hy : y = x
      · subst hy
        have e : (m.alloc.set y { name := n, val := some v, space := some m.next, view := view }).objs y = some _ := put_same _ _ _
        rw [e] at hp
        obtain rfl := Option.some.inj hp
        exact Or.inl ⟨rfl, (Option.some.inj hi).symm⟩
      · have e : (m.alloc.set x { name := n, val := some v, space := some m.next, view := view }).objs y = m.objs y := put_other _ _ hy
        rw [e] at hp
        exact Or.inr ⟨hy, hp, ((h.good y p hp).live i hi).2⟩
    intro y z p q i hp hq hpi hqi
    rcases key y p i hp hpi with ⟨e₁, e₂⟩ | ⟨e₁, e₂, e₃⟩ <;> rcases key z q i hq hqi with ⟨f₁, f₂⟩ | ⟨f₁, f₂, f₃⟩
    · rw [e₁, f₁]
    · omega
    · omega
    · exact h.apart y z p q i e₂ f₂ hpi hqi

/-- End of life of an object. -/
theorem Inv.drop {ord : Bool} {m : Mem M} (h : Inv ord m) (x : ℕ) (a : Obj M) (ha : m.objs x = some a) :
    Inv ord { (m.free a.space) with objs := put m.objs x none } := by
  have key : ∀ y p, put m.objs x none y = some p → y ≠ x ∧ m.objs y = some p := by
    intro y p hp
    by_cases hy : y = x
    · subst hy; rw [put_same] at hp; exact absurd hp (by simp)
    · rw [put_other _ _ hy] at hp; exact ⟨hy, hp⟩
  refine ⟨?_, ?_⟩
  · intro y p hp
    obtain ⟨hy, hp⟩ := key y p hp
    refine ⟨(h.good y p hp).full, fun i hi => ⟨?_, ((h.good y p hp).live i hi).2⟩⟩
    show (if a.space = some i then false else m.live i) = true
    rw [if_neg (fun e => hy (h.apart y x p a i hp ha hi e)), ((h.good y p hp).live i hi).1]
  · intro y z p q i hp hq
    exact h.apart y z p q i (key y p hp).2 (key z q hq).2

theorem Rel.drop {g : ℕ → Option (Obj M)} {a : ℕ → Option (Val M)} (h : Rel g a) (x : ℕ) : Rel (Fields.put g x none) (Fields.put a x none) := by
  intro y
  by_cases hy : y = x
  · subst hy
    rw [put_same, put_same]
    exact ⟨fun _ => rfl, fun n ov e => by simp at e⟩
  · rw [put_other _ _ hy, put_other _ _ hy]
    exact h y

/-- The two outcomes agree. -/
def Agrees (ord : Bool) (r : Res (Mem M)) (s : Res (ℕ → Option (Val M))) : Prop :=
  match s with
  | .ok a => ∃ m, r = .ok m ∧ Inv ord m ∧ Rel m.objs a
  | .error => r = .error
  | .ub => True

theorem doAssign_agrees {ord : Bool} {m : Mem M} {a : ℕ → Option (Val M)} (k : Kind) (hi : Inv ord m) (hr : Rel m.objs a) {x y : ℕ} {n n' : String}
    {v w : TVec M} (hx : a x = some (n, some v)) (hy : a y = some (n', some w)) :
    ∃ o p, m.objs x = some o ∧ m.objs y = some p ∧
      (v.1 = w.1 → ∃ o', doAssign k m x o p = .ok (m.set x o') ∧ Inv ord (m.set x o') ∧ o'.name = n ∧ o'.val = some w) ∧
      (v.1 ≠ w.1 → doAssign k m x o p = .error) := by
  obtain ⟨o, ho, ho'⟩ := (hr x).2 n (some v) hx
  obtain ⟨p, hp, hp'⟩ := (hr y).2 n' (some w) hy
  obtain ⟨en, ev⟩ := ho' v rfl
  obtain ⟨-, ew⟩ := hp' w rfl
  obtain ⟨-, i, hsi, hvi⟩ := (hi.good x o ho).full v ev
  obtain ⟨hadm, j, hsj, hvj⟩ := (hi.good y p hp).full w ew
  refine ⟨o, p, ho, hp, fun e => ?_, fun e => ?_⟩
  · have hs : sameSpace v.1 w.1 = true := (sameSpace_iff _ _).2 e
    refine ⟨{ o with val := some w, view := assignedView k i o.view p.view }, ?_, ?_, en, rfl⟩
    · unfold doAssign
      rw [ev, ew, hsi, hsj]
      simp [hs]
    · refine hi.set x o _ ho rfl ?_
      intro u hu
      obtain rfl := Option.some.inj hu
      refine ⟨hadm, i, hsi, ?_⟩
      cases k with
      | state => exact hvi
      | dual =>
        intro z hz
        have hz' : copyView i o.view p.view = some z := hz
        unfold copyView at hz'
        cases hpv : p.view with
        | none => rw [hpv] at hz'; exact hvi z hz'
        | some q =>
          rw [hpv] at hz'
          cases hov : o.view with
          | none => rw [hov] at hz'; rw [← Option.some.inj hz']
          | some q' => rw [hov] at hz'; rw [← Option.some.inj hz']; exact hvi q' hov
  · have hs : sameSpace v.1 w.1 = false := by
      cases h : sameSpace v.1 w.1 with
      | false => rfl
      | true => exact absurd ((sameSpace_iff _ _).1 h) e
    unfold doAssign
    rw [ev, ew, hsi, hsj]
    simp [hs]

theorem construct_ok {ord : Bool} {m : Mem M} {a : ℕ → Option (Val M)} (hi : Inv ord m) (hr : Rel m.objs a) (x : ℕ) (v : TVec M) (n : String)
    (view : Option (ℕ × LVec M)) (hv : admissible ord v.1 = true) (hw : ∀ z, view = some z → z.1 = m.next) :
    ∃ m', construct ord m x v n view = .ok m' ∧ Inv ord m' ∧ Rel m'.objs (put a x (some (n, some v))) := by
  refine ⟨m.alloc.set x { name := n, val := some v, space := some m.next, view := view }, ?_, hi.construct x v n view hv hw, ?_⟩
  · unfold construct; rw [if_pos hv]
  · exact hr.put x _ n (some v) (fun u hu => ⟨rfl, hu⟩)

theorem step_agrees {ord : Bool} {kind : ℕ → Kind} (hM : ∀ s, Ok (M s)) (op : Op M) (hop : Safe kind op) {m : Mem M} {a : ℕ → Option (Val M)}
    (hi : Inv ord m) (hr : Rel m.objs a) : Agrees ord (step ord kind op m) (meaning ord kind op a) := by
  cases op with
  | make x s n =>
    dsimp only [meaning]
    cases hx : a x with
    | some _ => exact True.intro
    | none =>
      have hmx := (hr x).1 hx
      dsimp only
      by_cases hs : 1 < s.vdim → s.byVDIM = ord
      · rw [if_pos hs]
        obtain ⟨m', h₁, h₂, h₃⟩ := construct_ok hi hr x (⟨s, fun _ => 0⟩ : TVec M) n none ((admissible_iff _ _).2 hs) (fun z hz => by simp at hz)
        refine ⟨m', ?_, h₂, h₃⟩
        dsimp only [step]; rw [hmx]; exact h₁
      · rw [if_neg hs]
        show step _ _ _ _ = _
        dsimp only [step]; rw [hmx]
        show construct _ _ _ _ _ _ = _
        unfold construct
        rw [if_neg]
        intro h
        exact hs ((admissible_iff _ _).1 h)
  | copy x y =>
    dsimp only [meaning]
    cases hx : a x with
    | some _ => exact True.intro
    | none =>
      cases hy : a y with
      | none => exact True.intro
      | some c =>
        obtain ⟨n, ov⟩ := c
        cases ov with
        | none => exact True.intro
        | some v =>
          dsimp only
          by_cases hk : kind x = kind y
          · rw [if_pos hk]
            have hmx := (hr x).1 hx
            obtain ⟨o, ho, ho'⟩ := (hr y).2 n (some v) hy
            obtain ⟨en, ev⟩ := ho' v rfl
            obtain ⟨hadm, i, hsi, hvi⟩ := (hi.good y o ho).full v ev
            obtain ⟨m', h₁, h₂, h₃⟩ := construct_ok hi hr x v n (assignedView (kind y) m.next none o.view) hadm (by
              intro z hz
              cases hky : kind y with
              | state => rw [hky] at hz; simp [assignedView] at hz
              | dual =>
                rw [hky] at hz
                have hz' : copyView m.next none o.view = some z := hz
                unfold copyView at hz'
                cases hov : o.view with
                | none => rw [hov] at hz'; simp at hz'
                | some q => rw [hov] at hz'; rw [← Option.some.inj hz'])
            refine ⟨m', ?_, h₂, h₃⟩
            dsimp only [step]; rw [hmx, ho]; dsimp only; rw [ev, en]; exact h₁
          · rw [if_neg hk]; trivial
  | move x y =>
    have hky : kind y = .state := hop
    dsimp only [meaning]
    cases hx : a x with
    | some _ => exact True.intro
    | none =>
      cases hy : a y with
      | none => exact True.intro
      | some c =>
        obtain ⟨n, ov⟩ := c
        cases ov with
        | none => exact True.intro
        | some v =>
          dsimp only
          by_cases hk : kind x = kind y
          · rw [if_pos hk]
            have hmx := (hr x).1 hx
            obtain ⟨o, ho, ho'⟩ := (hr y).2 n (some v) hy
            obtain ⟨en, ev⟩ := ho' v rfl
            obtain ⟨hadm, i, hsi, hvi⟩ := (hi.good y o ho).full v ev
            have hxy : x ≠ y := by
              intro e; subst e; rw [hx] at hy; simp at hy
            refine ⟨(m.set x { o with view := none }).set y { o with name := "", val := none, space := none }, ?_, ?_, ?_⟩
            · dsimp only [step]; rw [hmx, ho]; dsimp only; rw [hky]
            · have key : ∀ z p j, ((m.set x { o with view := none }).set y { o with name := "", val := none, space := none }).objs z = some p →
                  p.space = some j → (z = x ∧ j = i) ∨ (z ≠ x ∧ z ≠ y ∧ m.objs z = some p) := by
                intro z p j hp hj
                by_cases hzy : z = y
                · subst hzy
                  have e : ((m.set x { o with view := none }).set z { o with name := "", val := none, space := none }).objs z = some _ := put_same _ _ _
                  rw [e] at hp
                  obtain rfl := Option.some.inj hp
                  simp at hj
                · have e : ((m.set x { o with view := none }).set y { o with name := "", val := none, space := none }).objs z
                      = (m.set x { o with view := none }).objs z := put_other _ _ hzy
                  rw [e] at hp
                  by_cases hzx : z = x
                  · subst hzx
                    have e : (m.set z { o with view := none }).objs z = some _ := put_same _ _ _
                    rw [e] at hp
                    obtain rfl := Option.some.inj hp
                    exact Or.inl ⟨rfl, by rw [hsi] at hj; exact (Option.some.inj hj).symm⟩
                  · have e : (m.set x { o with view := none }).objs z = m.objs z := put_other _ _ hzx
                    rw [e] at hp
                    exact Or.inr ⟨hzx, hzy, hp⟩
              refine ⟨?_, ?_⟩
              · intro z p hp
                by_cases hzy : z = y
                · subst hzy
                  have e : ((m.set x { o with view := none }).set z { o with name := "", val := none, space := none }).objs z = some _ := put_same _ _ _
                  rw [e] at hp
                  obtain rfl := Option.some.inj hp
                  exact ⟨fun v hv => by simp at hv, fun i hi => by simp at hi⟩
                · have e : ((m.set x { o with view := none }).set y { o with name := "", val := none, space := none }).objs z
                      = (m.set x { o with view := none }).objs z := put_other _ _ hzy
                  rw [e] at hp
                  by_cases hzx : z = x
                  · subst hzx
                    have e : (m.set z { o with view := none }).objs z = some _ := put_same _ _ _
                    rw [e] at hp
                    obtain rfl := Option.some.inj hp
                    refine ⟨?_, fun j hj => (hi.good y o ho).live j hj⟩
                    intro u hu
                    rw [ev] at hu
                    obtain rfl := Option.some.inj hu
                    exact ⟨hadm, i, hsi, fun q hq => by simp at hq⟩
                  · have e : (m.set x { o with view := none }).objs z = m.objs z := put_other _ _ hzx
                    rw [e] at hp
                    exact ⟨(hi.good z p hp).full, (hi.good z p hp).live⟩
              · intro z z' p q j hp hq hpj hqj
                rcases key z p j hp hpj with ⟨e₁, e₂⟩ | ⟨e₁, e₂, e₃⟩ <;> rcases key z' q j hq hqj with ⟨f₁, f₂⟩ | ⟨f₁, f₂, f₃⟩
                · rw [e₁, f₁]
                · exact absurd (hi.apart z' y q o j f₃ ho hqj (e₂ ▸ hsi)) f₂
                · exact absurd (hi.apart z y p o j e₃ ho hpj (f₂ ▸ hsi)) e₂
                · exact hi.apart z z' p q j e₃ f₃ hpj hqj
            · exact (hr.put x { o with view := none } n (some v) (fun u hu => ⟨en, hu ▸ ev⟩)).put y _ n none (fun u hu => by simp at hu)
          · rw [if_neg hk]; trivial
  | assign x y =>
    dsimp only [meaning]
    cases hx : a x with
    | none => exact True.intro
    | some c =>
      obtain ⟨n, ov⟩ := c
      cases ov with
      | none => exact True.intro
      | some v =>
        cases hy : a y with
        | none => exact True.intro
        | some c =>
          obtain ⟨n', ov⟩ := c
          cases ov with
          | none => exact True.intro
          | some w =>
            dsimp only
            by_cases hk : kind x = kind y
            · rw [if_pos hk]
              obtain ⟨o, p, ho, hp, h₁, h₂⟩ := doAssign_agrees (kind x) hi hr hx hy
              by_cases hs : v.1 = w.1
              · rw [if_pos hs]
                obtain ⟨o', e, hi', en, ev⟩ := h₁ hs
                refine ⟨_, ?_, hi', hr.put x o' n (some w) (fun u hu => ⟨en, hu ▸ ev⟩)⟩
                dsimp only [step]; rw [ho, hp]; exact e
              · rw [if_neg hs]
                show step _ _ _ _ = _
                dsimp only [step]; rw [ho, hp]; exact h₂ hs
            · rw [if_neg hk]; trivial
  | moveAssign x y =>
    have hky : kind y = .state := hop
    dsimp only [meaning]
    cases hx : a x with
    | none => exact True.intro
    | some c =>
      obtain ⟨n, ov⟩ := c
      cases ov with
      | none => exact True.intro
      | some v =>
        cases hy : a y with
        | none => exact True.intro
        | some c =>
          obtain ⟨n', ov⟩ := c
          cases ov with
          | none => exact True.intro
          | some w =>
            dsimp only
            by_cases hk : kind x = kind y ∧ x ≠ y
            · rw [if_pos hk]
              have hkx : kind x = .state := hk.1.trans hky
              obtain ⟨o, p, ho, hp, h₁, h₂⟩ := doAssign_agrees .state hi hr hx hy
              by_cases hs : v.1 = w.1
              · rw [if_pos hs]
                obtain ⟨o', e, hi', en, ev⟩ := h₁ hs
                refine ⟨_, ?_, hi', ?_⟩
                · dsimp only [step]; rw [ho, hp]; dsimp only; rw [hkx]; exact e
                · have h₃ := hr.put x o' n (some w) (fun u hu => ⟨en, hu ▸ ev⟩)
                  intro z
                  by_cases hz : z = y
                  · subst hz
                    rw [put_same]
                    refine ⟨fun e => by simp at e, fun m' ov' e' => ?_⟩
                    obtain ⟨rfl, rfl⟩ := Prod.mk.inj (Option.some.inj e')
                    refine ⟨p, ?_, fun u hu => by simp at hu⟩
                    show put m.objs x (some o') z = some p
                    rw [put_other _ _ (Ne.symm hk.2)]; exact hp
                  · rw [put_other _ _ hz]; exact h₃ z
              · rw [if_neg hs]
                show step _ _ _ _ = _
                dsimp only [step]; rw [ho, hp]; dsimp only; rw [hkx]; exact h₂ hs
            · rw [if_neg hk]; trivial
  | const x c =>
    dsimp only [meaning]
    cases hx : a x with
    | none => exact True.intro
    | some d =>
      obtain ⟨n, ov⟩ := d
      cases ov with
      | none => exact True.intro
      | some v =>
        obtain ⟨o, ho, ho'⟩ := (hr x).2 n (some v) hx
        obtain ⟨en, ev⟩ := ho' v rfl
        obtain ⟨hadm, i, hsi, hvi⟩ := (hi.good x o ho).full v ev
        refine ⟨m.set x { o with val := some ⟨v.1, fun _ => c⟩ }, ?_, ?_, hr.put x _ n _ (fun u hu => ⟨en, hu⟩)⟩
        · dsimp only [step]; rw [ho]; dsimp only; rw [ev]
        · refine hi.set x o _ ho rfl ?_
          intro u hu
          obtain rfl := Option.some.inj hu
          exact ⟨hadm, i, hsi, hvi⟩
  | hypre x w =>
    dsimp only [meaning]
    cases hx : a x with
    | none => exact True.intro
    | some d =>
      obtain ⟨n, ov⟩ := d
      cases ov with
      | none => exact True.intro
      | some v =>
        obtain ⟨o, ho, ho'⟩ := (hr x).2 n (some v) hx
        obtain ⟨en, ev⟩ := ho' v rfl
        obtain ⟨hadm, i, hsi, hvi⟩ := (hi.good x o ho).full v ev
        dsimp only
        by_cases hw : ∀ r : Fin (M v.1).ranks, w.size r = (M v.1).size r
        · rw [if_pos hw]
          refine ⟨m.set x { o with val := some ⟨v.1, w.entries (M v.1)⟩ }, ?_, ?_, hr.put x _ n _ (fun u hu => ⟨en, hu⟩)⟩
          · dsimp only [step]; rw [ho]; dsimp only; unfold doWrite; rw [ev]; dsimp only; rw [if_pos (show w.fits (M v.1) from hw)]
          · refine hi.set x o _ ho rfl ?_
            intro u hu
            obtain rfl := Option.some.inj hu
            exact ⟨hadm, i, hsi, hvi⟩
        · rw [if_neg hw]
          show step _ _ _ _ = _
          dsimp only [step]; rw [ho]; dsimp only; unfold doWrite; rw [ev]; dsimp only; rw [if_neg (show ¬ w.fits (M v.1) from hw)]
  | vector x w =>
    dsimp only [meaning]
    cases hx : a x with
    | none => exact True.intro
    | some d =>
      obtain ⟨n, ov⟩ := d
      cases ov with
      | none => exact True.intro
      | some v =>
        obtain ⟨o, ho, ho'⟩ := (hr x).2 n (some v) hx
        obtain ⟨en, ev⟩ := ho' v rfl
        obtain ⟨hadm, i, hsi, hvi⟩ := (hi.good x o ho).full v ev
        dsimp only
        by_cases hw : ∀ r : Fin (M v.1).ranks, w.size r = (M v.1).size r
        · rw [if_pos hw]
          refine ⟨m.set x { o with val := some ⟨v.1, w.entries (M v.1)⟩ }, ?_, ?_, hr.put x _ n _ (fun u hu => ⟨en, hu⟩)⟩
          · dsimp only [step]; rw [ho]; dsimp only; unfold doWrite; rw [ev]; dsimp only; rw [if_pos (show w.fits (M v.1) from hw)]
          · refine hi.set x o _ ho rfl ?_
            intro u hu
            obtain rfl := Option.some.inj hu
            exact ⟨hadm, i, hsi, hvi⟩
        · rw [if_neg hw]; trivial
  | look x =>
    dsimp only [meaning]
    cases hx : a x with
    | none => exact True.intro
    | some d =>
      obtain ⟨n, ov⟩ := d
      cases ov with
      | none => exact True.intro
      | some v =>
        obtain ⟨o, ho, ho'⟩ := (hr x).2 n (some v) hx
        obtain ⟨en, ev⟩ := ho' v rfl
        obtain ⟨hadm, i, hsi, hvi⟩ := (hi.good x o ho).full v ev
        have hvs : viewSpace o i = i := by
          unfold viewSpace
          cases hov : o.view with
          | none => rfl
          | some z => exact hvi z hov
        refine ⟨m.set x { o with view := some (viewSpace o i, ⟨v.1, fill (M v.1) (kind x) v.2⟩) }, ?_, ?_, hr.same x o _ ho rfl rfl⟩
        · dsimp only [step]; rw [ho]; dsimp only; rw [ev, hsi]
        · refine hi.set x o _ ho rfl ?_
          intro u hu
          have hu' : o.val = some u := hu
          rw [ev] at hu'
          obtain rfl := Option.some.inj hu'
          exact ⟨hadm, i, hsi, fun z hz => by rw [← Option.some.inj hz]; exact hvs⟩
  | edit x f =>
    dsimp only [meaning]
    cases hx : a x with
    | none => exact True.intro
    | some d =>
      obtain ⟨n, ov⟩ := d
      cases ov with
      | none => exact True.intro
      | some v =>
        obtain ⟨o, ho, ho'⟩ := (hr x).2 n (some v) hx
        obtain ⟨en, ev⟩ := ho' v rfl
        obtain ⟨hadm, i, hsi, hvi⟩ := (hi.good x o ho).full v ev
        have hvs : viewSpace o i = i := by
          unfold viewSpace
          cases hov : o.view with
          | none => rfl
          | some z => exact hvi z hov
        have key : ∃ m', step ord kind (.edit x f) m = .ok m' ∧ Inv ord m' ∧
            Rel m'.objs (put a x (some (n, some ⟨v.1, setFrom (M v.1) (kind x) (f v.1 (fill (M v.1) (kind x) v.2))⟩))) := by
          refine ⟨m.set x { o with
            val := some ⟨v.1, setFrom (M v.1) (kind x) (f v.1 (fill (M v.1) (kind x) v.2))⟩
            view := some (viewSpace o i, ⟨v.1, f v.1 (fill (M v.1) (kind x) v.2)⟩) }, ?_, ?_, hr.put x _ n _ (fun u hu => ⟨en, hu⟩)⟩
          · dsimp only [step]; rw [ho]; dsimp only; rw [ev, hsi]; dsimp only
            rw [if_pos]
            rw [hvs]; exact ((hi.good x o ho).live i hsi).1
          · refine hi.set x o _ ho rfl ?_
            intro u hu
            obtain rfl := Option.some.inj hu
            exact ⟨hadm, i, hsi, fun z hz => by rw [← Option.some.inj hz]; exact hvs⟩
        obtain ⟨m', h₁, h₂, h₃⟩ := key
        cases hkx : kind x with
        | state =>
          rw [hkx] at h₃
          exact ⟨m', h₁, h₂, h₃⟩
        | dual =>
          rw [hkx, edit_dual (hM v.1)] at h₃
          exact ⟨m', h₁, h₂, h₃⟩
  | drop x =>
    dsimp only [meaning]
    cases hx : a x with
    | none => exact True.intro
    | some d =>
      obtain ⟨n, ov⟩ := d
      obtain ⟨o, ho, -⟩ := (hr x).2 n ov hx
      refine ⟨{ (m.free o.space) with objs := put m.objs x none }, ?_, hi.drop x o ho, hr.drop x⟩
      dsimp only [step]; rw [ho]

theorem run_agrees {ord : Bool} {kind : ℕ → Kind} (hM : ∀ s, Ok (M s)) (ops : List (Op M)) (hops : ∀ op ∈ ops, Safe kind op) {m : Mem M}
    {a : ℕ → Option (Val M)} (hi : Inv ord m) (hr : Rel m.objs a) : Agrees ord (run ord kind ops m) (meanings ord kind ops a) := by
  induction ops generalizing m a with
  | nil => exact ⟨m, rfl, hi, hr⟩
  | cons op ops ih =>
    have h := step_agrees hM op (hops op (by simp)) hi hr (kind := kind)
    unfold meanings
    cases hm : meaning ord kind op a with
    | ok a' =>
      rw [hm] at h
      obtain ⟨m', e, hi', hr'⟩ := h
      unfold run; rw [e]
      exact ih (fun op' h' => hops op' (by simp [h'])) hi' hr'
    | error =>
      rw [hm] at h
      show run _ _ _ _ = _
      unfold run; rw [show step ord kind op m = .error from h]
    | ub => trivial

theorem empty_inv (ord : Bool) : Inv ord (Mem.empty : Mem M) := ⟨fun x o h => by simp [Mem.empty] at h, fun x y o p i h => by simp [Mem.empty] at h⟩

theorem empty_rel : Rel (Mem.empty : Mem M).objs (fun _ => none) := fun _ => ⟨fun _ => rfl, fun n ov h => by simp at h⟩

/-! ### Theorems -/

/-- **States and duals are values** (moves of duals excepted).  For every program without moves of duals, on every family of conforming
spaces: if the value semantics gives each variable a name and a vector, the program runs without error or undefined behaviour and every
variable holds that name and that vector; if the value semantics refuses the program, it stops with an error. -/
theorem C74_values_partial (hM : ∀ s, Ok (M s)) (ord : Bool) (kind : ℕ → Kind) (ops : List (Op M)) (hops : ∀ op ∈ ops, Safe kind op) :
    (∀ a, meanings ord kind ops (fun _ => none) = .ok a → ∃ m, run ord kind ops Mem.empty = .ok m ∧
      ∀ x n v, a x = some (n, some v) → ∃ o, m.objs x = some o ∧ o.name = n ∧ o.val = some v) ∧
    (meanings ord kind ops (fun _ => none) = .error → run ord kind ops Mem.empty = .error) := by
  have h := run_agrees hM ops hops (empty_inv ord) empty_rel (kind := kind)
  constructor
  · intro a ha
    rw [ha] at h
    obtain ⟨m, e, -, hr⟩ := h
    refine ⟨m, e, fun x n v hx => ?_⟩
    obtain ⟨o, ho, ho'⟩ := (hr x).2 n (some v) hx
    exact ⟨o, ho, (ho' v rfl).1, (ho' v rfl).2⟩
  · intro ha
    rw [ha] at h
    exact h

/-- **The local view is the field.**  Asking a variable for its grid function or linear form leaves all vectors alone and returns: for a state,
at every local dof the entry of its true dof with the sign of its orientation; for a dual, the entry at the owner's copy and zero elsewhere. -/
theorem C74_view (hM : ∀ s, Ok (M s)) (ord : Bool) (kind : ℕ → Kind) (ops : List (Op M)) (hops : ∀ op ∈ ops, Safe kind op)
    (a : ℕ → Option (Val M)) (ha : meanings ord kind ops (fun _ => none) = .ok a) (x : ℕ) (n : String) (v : TVec M) (hx : a x = some (n, some v)) :
    ∃ m m' o i w, run ord kind ops Mem.empty = .ok m ∧ step ord kind (.look x) m = .ok m' ∧ m'.objs x = some o ∧ o.val = some v ∧
      o.view = some (i, ⟨v.1, w⟩) ∧ (∀ y, y ≠ x → m'.objs y = m.objs y) ∧
      (kind x = .state → ∀ l, w l = (M v.1).sign l * v.2 ((M v.1).tdof l)) ∧
      (kind x = .dual → ∀ t, w ((M v.1).own t) = v.2 t) ∧
      (kind x = .dual → ∀ l, (∀ t, l ≠ (M v.1).own t) → w l = 0) := by
  have h := run_agrees hM ops hops (empty_inv ord) empty_rel (kind := kind)
  rw [ha] at h
  obtain ⟨m, e, hi, hr⟩ := h
  obtain ⟨o, ho, ho'⟩ := (hr x).2 n (some v) hx
  obtain ⟨en, ev⟩ := ho' v rfl
  obtain ⟨hadm, i, hsi, hvi⟩ := (hi.good x o ho).full v ev
  refine ⟨m, m.set x { o with view := some (viewSpace o i, ⟨v.1, fill (M v.1) (kind x) v.2⟩) }, _, viewSpace o i, fill (M v.1) (kind x) v.2,
    e, ?_, put_same _ _ _, ev, rfl, fun y hy => put_other _ _ hy, ?_, ?_, ?_⟩
  · dsimp only [step]; rw [ho]; dsimp only; rw [ev, hsi]
  · intro hk l; rw [hk]; rfl
  · intro hk t
    rw [hk]
    show (M v.1).spread v.2 _ = _
    rw [spread_eq (hM v.1), (hM v.1).own, if_pos rfl]
  · intro hk l hl
    rw [hk]
    show (M v.1).spread v.2 _ = _
    rw [spread_eq (hM v.1), if_neg (fun h => hl _ h.symm)]

/-- **Round trip.**  Writing the local view back unchanged changes nothing, for states and for duals. -/
theorem C74_round_trip {K : Layout} (h : Ok K) (k : Kind) (v : K.True → ℝ) : setFrom K k (fill K k v) = v := by
  cases k with
  | state =>
    funext t
    show K.sign (K.own t) * v (K.tdof (K.own t)) = v t
    rw [h.plus, h.own, one_mul]
  | dual =>
    refine (edit_dual h (fun w => w) v).trans ?_
    funext t
    unfold editDual
    rw [Finset.sum_eq_single (K.own t)]
    · beta_reduce
      rw [if_pos (by rw [h.own]), h.plus, h.own, one_mul]
    · intro l hl hne
      rw [Finset.mem_filter] at hl
      beta_reduce
      rw [if_neg, mul_zero]
      rw [hl.2]
      exact fun e => hne e.symm
    · intro hn
      exact absurd (Finset.mem_filter.2 ⟨Finset.mem_univ (K.own t), h.own t⟩) hn

/-- The assembled vector acts on true vectors as the local vector acts on local ones. -/
theorem assemble_dot (K : Layout) (w : K.Loc → ℝ) (u : K.True → ℝ) : ∑ t, K.assemble w t * u t = ∑ l, w l * K.prolong u l := by
  unfold Layout.assemble Layout.prolong
  simp only [Finset.sum_mul]
  rw [Finset.sum_comm]
  apply Finset.sum_congr rfl
  intro l _
  rw [Finset.sum_eq_single (K.tdof l)]
  · rw [if_pos rfl]; ring
  · intro t _ ht
    rw [if_neg (Ne.symm ht), zero_mul]
  · intro ht; exact absurd (Finset.mem_univ _) ht

/-- **A dual acts on a state the same way through any representation**: the sum over the true dofs of all ranks, the sum of local linear form
times local grid function over all ranks, and, for any local linear form, assembling before or after. -/
theorem C74_pairing {K : Layout} (h : Ok K) (d u : K.True → ℝ) (w : K.Loc → ℝ) :
    ∑ l, fill K .dual d l * fill K .state u l = ∑ t, d t * u t ∧
    ∑ t, setFrom K .dual w t * u t = ∑ l, w l * fill K .state u l := by
  constructor
  · have e := assemble_dot K (fill K .dual d) u
    have e' : K.assemble (fill K .dual d) = d := C74_round_trip h .dual d
    rw [e'] at e
    exact e.symm
  · exact assemble_dot K w u

/-- Number of true dofs on all ranks. -/
def total (K : Layout) : ℕ := ∑ r, K.size r

theorem sum_ranks {K : Layout} (f : K.True → ℝ) : ∑ r, ∑ i, f ⟨r, i⟩ = ∑ t, f t := by
  rw [Fintype.sum_sigma]

theorem bmod_small {n : ℕ} (h : n < 2 ^ 31) : ((n : ℤ)).bmod (2 ^ 32) = n := by
  apply Int.bmod_eq_of_le <;> push_cast <;> omega

/-- **Average**: with at least one and fewer than `2^31` dofs in all, `avg` is the mean of all entries, however they are spread over ranks
(ranks without dofs included). -/
theorem C74_avg (K : Layout) (v : K.True → ℝ) (h1 : total K < 2 ^ 31) : K.avg v = (∑ t, v t) / (total K : ℝ) := by
  unfold Layout.avg Layout.localSum Layout.globalSize
  rw [sum_ranks]
  congr 1
  have : (∑ r, (K.size r : ℤ)) = ((total K : ℕ) : ℤ) := by unfold total; push_cast; rfl
  rw [this, bmod_small h1]
  norm_cast

/-- **The size is counted in 32 bits**: the average of a field of ones is one exactly if there are between 1 and `2^31 - 1` dofs. -/
theorem C74_avg_ones (K : Layout) : K.avg (fun _ => 1) = 1 ↔ 0 < total K ∧ total K < 2 ^ 31 := by
  have hs : (∑ r, K.localSum (fun _ => (1 : ℝ)) r) = (total K : ℝ) := by
    unfold Layout.localSum total
    simp
  have hg : K.globalSize = ((total K : ℕ) : ℤ).bmod (2 ^ 32) := by
    unfold Layout.globalSize
    congr 1
    unfold total; push_cast; rfl
  have ha : K.avg (fun _ => 1) = (total K : ℝ) / (K.globalSize : ℝ) := by unfold Layout.avg; rw [hs]
  rw [ha]
  constructor
  · intro h
    have hne : (K.globalSize : ℝ) ≠ 0 := by
      intro h0; rw [h0, div_zero] at h; exact absurd h (by norm_num)
    have he : (total K : ℝ) = (K.globalSize : ℝ) := by
      rw [div_eq_one_iff_eq hne] at h; exact h
    have he' : ((total K : ℕ) : ℤ) = K.globalSize := by exact_mod_cast he
    have hlt : K.globalSize < 2 ^ 31 := by
      rw [hg]
      have := @Int.bmod_lt ((total K : ℕ) : ℤ) (2 ^ 32) (by norm_num)
      norm_num at this ⊢
      omega
    constructor
    · rcases Nat.eq_zero_or_pos (total K) with h0 | h0
      · exfalso; apply hne; rw [← he, h0]; norm_num
      · exact h0
    · omega
  · rintro ⟨h0, h1⟩
    rw [hg, bmod_small h1]
    have : ((total K : ℕ) : ℝ) ≠ 0 := by exact_mod_cast h0.ne'
    push_cast
    exact div_self this

/-- **Maximum**: the largest entry on all ranks; minus infinity exactly if there is none. -/
theorem C74_max (K : Layout) (v : K.True → ℝ) :
    (∀ c : ℝ, K.max v = (c : WithBot ℝ) ↔ (∃ t, v t = c) ∧ ∀ t, v t ≤ c) ∧ (K.max v = ⊥ ↔ IsEmpty K.True) := by
  have hle : ∀ c : WithBot ℝ, K.max v ≤ c ↔ ∀ t, ((v t : ℝ) : WithBot ℝ) ≤ c := by
    intro c
    unfold Layout.max Layout.localMax
    simp only [Finset.sup_le_iff, Finset.mem_univ, forall_true_left]
    exact ⟨fun h t => h t.1 t.2, fun h r i => h ⟨r, i⟩⟩
  have hmem : ∀ c : ℝ, K.max v = (c : WithBot ℝ) → ∃ t, v t = c := by
    intro c hc
    by_contra hn
    have hlt : ∀ t, v t < c := by
      intro t
      have := (hle c).1 hc.le t
      exact lt_of_le_of_ne (WithBot.coe_le_coe.1 this) (fun e => hn ⟨t, e⟩)
    have : K.max v < (c : WithBot ℝ) := by
      unfold Layout.max Layout.localMax
      rw [Finset.sup_lt_iff (WithBot.bot_lt_coe c)]
      intro r _
      rw [Finset.sup_lt_iff (WithBot.bot_lt_coe c)]
      intro i _
      exact WithBot.coe_lt_coe.2 (hlt ⟨r, i⟩)
    exact absurd hc this.ne
  constructor
  · intro c
    constructor
    · intro hc
      exact ⟨hmem c hc, fun t => WithBot.coe_le_coe.1 ((hle c).1 hc.le t)⟩
    · rintro ⟨⟨t, rfl⟩, h⟩
      apply le_antisymm
      · exact (hle _).2 fun s => WithBot.coe_le_coe.2 (h s)
      · exact (hle _).1 le_rfl t
  · rw [← le_bot_iff, hle]
    constructor
    · intro h
      exact ⟨fun t => absurd (h t) (by simp)⟩
    · intro h t
      exact h.elim t

/-- **Minimum**: the smallest entry on all ranks; plus infinity exactly if there is none. -/
theorem C74_min (K : Layout) (v : K.True → ℝ) :
    (∀ c : ℝ, K.min v = (c : WithTop ℝ) ↔ (∃ t, v t = c) ∧ ∀ t, c ≤ v t) ∧ (K.min v = ⊤ ↔ IsEmpty K.True) := by
  have hle : ∀ c : WithTop ℝ, c ≤ K.min v ↔ ∀ t, c ≤ ((v t : ℝ) : WithTop ℝ) := by
    intro c
    unfold Layout.min Layout.localMin
    simp only [Finset.le_inf_iff, Finset.mem_univ, forall_true_left]
    exact ⟨fun h t => h t.1 t.2, fun h r i => h ⟨r, i⟩⟩
  have hmem : ∀ c : ℝ, K.min v = (c : WithTop ℝ) → ∃ t, v t = c := by
    intro c hc
    by_contra hn
    have hlt : ∀ t, c < v t := by
      intro t
      have := (hle c).1 hc.ge t
      exact lt_of_le_of_ne (WithTop.coe_le_coe.1 this) (fun e => hn ⟨t, e.symm⟩)
    have : (c : WithTop ℝ) < K.min v := by
      unfold Layout.min Layout.localMin
      rw [Finset.lt_inf_iff (WithTop.coe_lt_top c)]
      intro r _
      rw [Finset.lt_inf_iff (WithTop.coe_lt_top c)]
      intro i _
      exact WithTop.coe_lt_coe.2 (hlt ⟨r, i⟩)
    exact absurd hc this.ne'
  constructor
  · intro c
    constructor
    · intro hc
      exact ⟨hmem c hc, fun t => WithTop.coe_le_coe.1 ((hle c).1 hc.ge t)⟩
    · rintro ⟨⟨t, rfl⟩, h⟩
      apply le_antisymm
      · exact (hle _).1 le_rfl t
      · exact (hle _).2 fun s => WithTop.coe_le_coe.2 (h s)
  · rw [← top_le_iff, hle]
    constructor
    · intro h
      exact ⟨fun t => absurd (h t) (by simp)⟩
    · intro h t
      exact h.elim t

/-- **Inner product**: refused exactly if the vectors belong to different spaces, otherwise the sum over all true dofs of all ranks. -/
theorem C74_inner (a b : TVec M) :
    (innerProduct a b = .error ↔ a.1 ≠ b.1) ∧
    ∀ (s : Space) (u v : (M s).True → ℝ), innerProduct (⟨s, u⟩ : TVec M) ⟨s, v⟩ = .ok (∑ t, u t * v t) := by
  constructor
  · unfold innerProduct
    by_cases h : a.1 = b.1
    · rw [if_pos ((sameSpace_iff _ _).2 h), dif_pos h]
      simp [h]
    · rw [if_neg (fun h' => h ((sameSpace_iff _ _).1 h'))]
      simp [h]
  · intro s u v
    unfold innerProduct
    rw [if_pos ((sameSpace_iff _ _).2 rfl), dif_pos rfl]
    unfold Layout.dot Layout.localDot
    rw [sum_ranks (fun t => u t * v t)]

/-- **Independent of the partition**: two distributions of the same dofs over ranks give the same reductions. -/
theorem C74_partition (K K' : Layout) (e : K.True ≃ K'.True) (u v : K'.True → ℝ) :
    K.avg (v ∘ e) = K'.avg v ∧ K.max (v ∘ e) = K'.max v ∧ K.min (v ∘ e) = K'.min v ∧ K.dot (u ∘ e) (v ∘ e) = K'.dot u v := by
  have hcard : (∑ r, (K.size r : ℤ)) = ∑ r, (K'.size r : ℤ) := by
    have := Fintype.card_congr e
    simp only [Fintype.card_sigma, Fintype.card_fin] at this
    exact_mod_cast this
  refine ⟨?_, ?_, ?_, ?_⟩
  · unfold Layout.avg Layout.localSum Layout.globalSize
    rw [hcard, sum_ranks, sum_ranks]
    congr 1
    exact Equiv.sum_comp e v
  · apply le_antisymm
    · unfold Layout.max Layout.localMax
      simp only [Finset.sup_le_iff, Finset.mem_univ, forall_true_left]
      intro r i
      exact (Finset.le_sup (f := fun j => ((v ⟨(e ⟨r, i⟩).1, j⟩ : ℝ) : WithBot ℝ)) (Finset.mem_univ (e ⟨r, i⟩).2)).trans
        (Finset.le_sup (f := fun r => Finset.univ.sup fun j => ((v ⟨r, j⟩ : ℝ) : WithBot ℝ)) (Finset.mem_univ (e ⟨r, i⟩).1))
    · unfold Layout.max Layout.localMax
      simp only [Finset.sup_le_iff, Finset.mem_univ, forall_true_left]
      intro r i
      have he : ((v ⟨r, i⟩ : ℝ) : WithBot ℝ) = (((v ∘ e) (e.symm ⟨r, i⟩) : ℝ) : WithBot ℝ) := by simp
      rw [he]
      exact (Finset.le_sup (f := fun j => (((v ∘ e) ⟨(e.symm ⟨r, i⟩).1, j⟩ : ℝ) : WithBot ℝ)) (Finset.mem_univ (e.symm ⟨r, i⟩).2)).trans
        (Finset.le_sup (f := fun r => Finset.univ.sup fun j => (((v ∘ e) ⟨r, j⟩ : ℝ) : WithBot ℝ)) (Finset.mem_univ (e.symm ⟨r, i⟩).1))
  · apply le_antisymm
    · unfold Layout.min Layout.localMin
      simp only [Finset.le_inf_iff, Finset.mem_univ, forall_true_left]
      intro r i
      have he : ((v ⟨r, i⟩ : ℝ) : WithTop ℝ) = (((v ∘ e) (e.symm ⟨r, i⟩) : ℝ) : WithTop ℝ) := by simp
      rw [he]
      exact (Finset.inf_le (f := fun r => Finset.univ.inf fun j => (((v ∘ e) ⟨r, j⟩ : ℝ) : WithTop ℝ)) (Finset.mem_univ (e.symm ⟨r, i⟩).1)).trans
        (Finset.inf_le (f := fun j => (((v ∘ e) ⟨(e.symm ⟨r, i⟩).1, j⟩ : ℝ) : WithTop ℝ)) (Finset.mem_univ (e.symm ⟨r, i⟩).2))
    · unfold Layout.min Layout.localMin
      simp only [Finset.le_inf_iff, Finset.mem_univ, forall_true_left]
      intro r i
      exact (Finset.inf_le (f := fun r => Finset.univ.inf fun j => ((v ⟨r, j⟩ : ℝ) : WithTop ℝ)) (Finset.mem_univ (e ⟨r, i⟩).1)).trans
        (Finset.inf_le (f := fun j => ((v ⟨(e ⟨r, i⟩).1, j⟩ : ℝ) : WithTop ℝ)) (Finset.mem_univ (e ⟨r, i⟩).2))
  · unfold Layout.dot Layout.localDot
    rw [sum_ranks (fun t => (u ∘ e) t * (v ∘ e) t), sum_ranks (fun t => u t * v t)]
    exact Equiv.sum_comp e (fun t => u t * v t)

/-- **Projection**: after a projection onto a list of local dofs, a true dof has the coefficient's value if its owner's copy is listed and its
old value otherwise. -/
theorem C74_project {K : Layout} (h : Ok K) (S : K.Loc → Prop) [DecidablePred S] (g : K.Loc → ℝ) (v : K.True → ℝ) (t : K.True) :
    setFrom K .state (project K S g (fill K .state v)) t = if S (K.own t) then g (K.own t) else v t := by
  show (if S (K.own t) then g (K.own t) else K.sign (K.own t) * v (K.tdof (K.own t))) = _
  rw [h.plus, h.own, one_mul]

/-- **Projection onto a domain depends on the partition.**  The code lists, on every rank, the local dofs of that rank's elements of the
domain (`S`).  Every true dof with a copy in the domain gets the coefficient's value, for all fields and coefficients, exactly if the owner of
each such dof has an element of the domain at it as well.  On one rank, where every local dof is its own owner, that always holds. -/
theorem C74_project_domain_wrong {K : Layout} (h : Ok K) (S : K.Loc → Prop) [DecidablePred S] :
    ((∀ (G v : K.True → ℝ) (l : K.Loc), S l →
        setFrom K .state (project K S (fun l => K.sign l * G (K.tdof l)) (fill K .state v)) (K.tdof l) = G (K.tdof l)) ↔
      ∀ l, S l → S (K.own (K.tdof l))) ∧
    ((∀ l l', K.tdof l = K.tdof l' → l = l') → ∀ l, S l → S (K.own (K.tdof l))) := by
  constructor
  · constructor
    · intro hp l hl
      by_contra hn
      have := hp (fun _ => 1) (fun _ => 0) l hl
      rw [C74_project h, if_neg hn] at this
      norm_num at this
    · intro hc G v l hl
      rw [C74_project h, if_pos (hc l hl), h.plus, h.own, one_mul]
  · intro hinj l hl
    rw [hinj (K.own (K.tdof l)) l (h.own _)]
    exact hl

/-- **Move assignment of a dual assigns nothing.**  `x = std::move(y)` leaves the true vector of every dual, `x` included, as it was (and does
not compare spaces), so it gives `x` the value of `y` exactly if `x` had it already. -/
theorem C74_dual_move_assign_wrong (ord : Bool) (kind : ℕ → Kind) (m : Mem M) (x y : ℕ) (a b : Obj M) (hk : kind x = .dual)
    (hx : m.objs x = some a) (hy : m.objs y = some b) :
    ∃ m', step ord kind (.moveAssign x y) m = .ok m' ∧
      (∀ z, (m'.objs z).map Obj.val = (m.objs z).map Obj.val) ∧
      ((∃ a', m'.objs x = some a' ∧ a'.val = b.val) ↔ a.val = b.val) := by
  have key : ∃ m', step ord kind (.moveAssign x y) m = .ok m' ∧ (∀ z, (m'.objs z).map Obj.val = (m.objs z).map Obj.val) := by
    by_cases h : x = y
    · refine ⟨m, ?_, fun _ => rfl⟩
      dsimp only [step]; rw [hx, hy]; dsimp only; rw [hk]; dsimp only; rw [if_pos h]
    · refine ⟨(m.set x { a with view := b.view }).set y { b with view := none }, ?_, ?_⟩
      · dsimp only [step]; rw [hx, hy]; dsimp only; rw [hk]; dsimp only; rw [if_neg h]
      · intro z
        show Option.map Obj.val (put (put m.objs x _) y _ z) = _
        by_cases hzy : z = y
        · subst hzy; rw [put_same, hy]; rfl
        · rw [put_other _ _ hzy]
          by_cases hzx : z = x
          · subst hzx; rw [put_same, hx]; rfl
          · rw [put_other _ _ hzx]
  obtain ⟨m', e, hv⟩ := key
  refine ⟨m', e, hv, ?_⟩
  have hvx := hv x
  rw [hx] at hvx
  cases hm : m'.objs x with
  | none => rw [hm] at hvx; simp at hvx
  | some a' =>
    rw [hm] at hvx
    have hva : a'.val = a.val := by simpa using hvx
    constructor
    · rintro ⟨a'', h', h''⟩
      obtain rfl := Option.some.inj h'
      rw [← hva, h'']
    · intro h'
      exact ⟨a', rfl, hva.trans h'⟩

/-- The vector a variable holds after a program. -/
def held (r : Res (Mem M)) (x : ℕ) : Option (TVec M) :=
  match r with
  | .ok m => (m.objs x).bind Obj.val
  | _ => none

/-- The vector a variable is meant to hold. -/
def meant (r : Res (ℕ → Option (Val M))) (x : ℕ) : Option (TVec M) :=
  match r with
  | .ok a => (a x).bind Prod.snd
  | _ => none

/-- As a program: make two duals, set the second to `c`, move it into the first, read the first: it is zero, not `c`. -/
theorem C74_dual_move_assign_program_wrong (ord : Bool) (s : Space) (hs : 1 < s.vdim → s.byVDIM = ord) (c : ℝ) :
    meant (meanings ord (fun _ => .dual) [.make 0 s "x", .make 1 s "y", .const 1 c, .moveAssign 0 1] (fun _ => none)) 0
      = some (⟨s, fun _ => c⟩ : TVec M) ∧
    held (run ord (fun _ => .dual) [.make 0 s "x", .make 1 s "y", .const 1 c, .moveAssign 0 1] Mem.empty) 0
      = some (⟨s, fun _ => 0⟩ : TVec M) := by
  have hadm : admissible ord s = true := (admissible_iff _ _).2 hs
  constructor
  · simp only [meanings, meaning]
    rw [if_pos hs]
    simp only [put]
    rw [if_neg (by norm_num), if_pos hs]
    simp [meant, put]
  · simp [run, step, construct, hadm, Mem.set, Mem.alloc, Mem.empty, put, held]

/-- The same program with states gives `c`. -/
theorem C74_state_move_assign (ord : Bool) (s : Space) (hs : 1 < s.vdim → s.byVDIM = ord) (c : ℝ) :
    held (run ord (fun _ => .state) [.make 0 s "x", .make 1 s "y", .const 1 c, .moveAssign 0 1] Mem.empty) 0
      = some (⟨s, fun _ => c⟩ : TVec M) := by
  have hadm : admissible ord s = true := (admissible_iff _ _).2 hs
  have hss : sameSpace s s = true := (sameSpace_iff _ _).2 rfl
  simp [run, step, construct, hadm, Mem.set, Mem.alloc, Mem.empty, put, held, doAssign, hss]

/-- **Move construction of a dual takes over a linear form that refers to the space of the source.**  Make a dual, ask for its linear form, move
construct another one from it, let the first go out of scope, use `linearForm` and `setFromLinearForm` of the second: the value semantics gives
the program a meaning, the code follows a pointer to the destroyed space. -/
theorem C74_dual_move_wrong (ord : Bool) (s : Space) (hs : 1 < s.vdim → s.byVDIM = ord)
    (f : (s : Space) → ((M s).Loc → ℝ) → ((M s).Loc → ℝ)) :
    meant (meanings ord (fun _ => .dual) [.make 1 s "y", .look 1, .move 0 1, .drop 1, .edit 0 f] (fun _ => none)) 0
      = some (⟨s, editDual (M s) (f s) (fun _ => 0)⟩ : TVec M) ∧
    run ord (fun _ => .dual) [.make 1 s "y", .look 1, .move 0 1, .drop 1, .edit 0 f] (Mem.empty : Mem M) = .ub := by
  have hadm : admissible ord s = true := (admissible_iff _ _).2 hs
  constructor
  · simp only [meanings, meaning]
    rw [if_pos hs]
    simp [meant, put]
  · simp [run, step, construct, hadm, Mem.set, Mem.alloc, Mem.empty, Mem.free, put, viewSpace]

/-- Move construction of a dual that was never asked for its linear form is sound: the new dual has name and vector of the old one. -/
theorem C74_dual_move_partial (hM : ∀ s, Ok (M s)) (ord : Bool) (kind : ℕ → Kind) (ops : List (Op M)) (hops : ∀ op ∈ ops, Safe kind op)
    (a : ℕ → Option (Val M)) (ha : meanings ord kind ops (fun _ => none) = .ok a) (x y : ℕ) (n : String) (v : TVec M) (hk : kind y = .dual)
    (hx : a x = none) (hy : a y = some (n, some v)) (m : Mem M) (hm : run ord kind ops Mem.empty = .ok m)
    (hv : ∀ b, m.objs y = some b → b.view = none) :
    ∃ m', step ord kind (.move x y) m = .ok m' ∧ Inv ord m' ∧ Rel m'.objs (put (put a x (some (n, some v))) y (some (n, none))) := by
  have h := run_agrees hM ops hops (empty_inv ord) empty_rel (kind := kind)
  rw [ha] at h
  obtain ⟨m₁, e, hi, hr⟩ := h
  rw [hm] at e
  obtain rfl : m = m₁ := by injection e
  have hmx := (hr x).1 hx
  obtain ⟨o, ho, ho'⟩ := (hr y).2 n (some v) hy
  obtain ⟨en, ev⟩ := ho' v rfl
  obtain ⟨hadm, i, hsi, hvi⟩ := (hi.good y o ho).full v ev
  have hov := hv o ho
  have hxy : y ≠ x := by intro e; subst e; rw [hx] at hy; simp at hy
  obtain ⟨m', h₁, h₂, h₃⟩ := construct_ok hi hr x v n none hadm (fun z hz => by simp at hz)
  have hm'y : m'.objs y = some o := by
    unfold construct at h₁
    rw [if_pos hadm] at h₁
    have : m.alloc.set x { name := n, val := some v, space := some m.next, view := none } = m' := by injection h₁
    rw [← this]
    show put m.objs x _ y = _
    rw [put_other _ _ hxy]; exact ho
  refine ⟨m'.set y { o with view := none }, ?_, ?_, ?_⟩
  · dsimp only [step]; rw [hmx, ho]; dsimp only; rw [hk]; dsimp only; rw [ev]; dsimp only; rw [en, hov, h₁]
  · refine h₂.set y o _ hm'y rfl ?_
    intro u hu
    have := (h₂.good y o hm'y).full u hu
    obtain ⟨h₄, j, h₅, h₆⟩ := this
    exact ⟨h₄, j, h₅, fun z hz => by simp at hz⟩
  · exact h₃.put y _ n none (fun u hu => by simp at hu)

/-! ### Examples -/

/-- Two ranks; rank 0 owns two dofs, rank 1 one dof and a copy of the second dof of rank 0 with the opposite orientation. -/
def exLayout : Layout where
  ranks := 2
  size := ![2, 1]
  lsize := ![2, 2]
  tdof := fun l => if l.1.val = 0 then (if l.2.val = 0 then ⟨0, (0 : Fin 2)⟩ else ⟨0, (1 : Fin 2)⟩)
    else (if l.2.val = 0 then ⟨0, (1 : Fin 2)⟩ else ⟨1, (0 : Fin 1)⟩)
  sign := fun l => if l.1.val = 1 ∧ l.2.val = 0 then -1 else 1
  own := fun t => if t.1.val = 0 then (if t.2.val = 0 then ⟨0, (0 : Fin 2)⟩ else ⟨0, (1 : Fin 2)⟩) else ⟨1, (1 : Fin 2)⟩

theorem exLayout_ok : Ok exLayout := by
  have hown : ∀ t : (r : Fin 2) × Fin (![2, 1] r), exLayout.tdof (exLayout.own t) = t := by
    rintro ⟨r, i⟩
    fin_cases r
    · change Fin 2 at i
      fin_cases i <;> rfl
    · change Fin 1 at i
      fin_cases i <;> rfl
  have hpl : ∀ t : (r : Fin 2) × Fin (![2, 1] r), ¬ ((exLayout.own t).1.val = 1 ∧ (exLayout.own t).2.val = 0) := by decide
  have hrk : ∀ t : (r : Fin 2) × Fin (![2, 1] r), (exLayout.own t).1 = t.1 := by
    rintro ⟨r, i⟩
    fin_cases r
    · change Fin 2 at i
      fin_cases i <;> rfl
    · change Fin 1 at i
      fin_cases i <;> rfl
  refine ⟨hown, fun t => ?_, hrk, fun l => ?_⟩
  · show (if _ then (-1 : ℝ) else 1) = 1
    rw [if_neg (hpl t)]
  · show (if _ then (-1 : ℝ) else 1) * (if _ then (-1 : ℝ) else 1) = 1
    split_ifs <;> norm_num

/-- A space of two ranks and a program on it: the hypotheses of `C74_values_partial` and its meaning. -/
example : ∃ m, run (M := fun _ => exLayout) true (fun _ => .dual)
    [.make 0 ⟨0, "H1", 2, true⟩ "f", .const 0 3, .copy 1 0, .edit 1 (fun _ w l => 2 * w l), .assign 0 1, .drop 1] Mem.empty = .ok m ∧
    ∃ o, m.objs 0 = some o ∧ o.name = "f" ∧ o.val = some ⟨⟨0, "H1", 2, true⟩, editDual exLayout (fun w l => 2 * w l) (fun _ => 3)⟩ := by
  obtain ⟨m, e, h⟩ := (C74_values_partial (M := fun _ => exLayout) (fun _ => exLayout_ok) true (fun _ => .dual)
    [.make 0 ⟨0, "H1", 2, true⟩ "f", .const 0 3, .copy 1 0, .edit 1 (fun _ w l => 2 * w l), .assign 0 1, .drop 1]
    (by intro op hop; simp at hop; rcases hop with rfl | rfl | rfl | rfl | rfl | rfl <;> trivial)).1 _ (by
      simp [meanings, meaning, put]; rfl)
  exact ⟨m, e, h 0 "f" _ (by simp [put])⟩

/-- That meaning: all entries doubled. -/
example (t : exLayout.True) : editDual exLayout (fun w l => 2 * w l) (fun _ => 3) t = 6 := by
  have h := edit_dual exLayout_ok (fun w l => 2 * w l) (fun _ => (3 : ℝ))
  have hr := C74_round_trip exLayout_ok .dual (fun _ => (3 : ℝ))
  rw [← h]
  have e : setFrom exLayout .dual (fun l => 2 * fill exLayout .dual (fun _ => 3) l) t
      = 2 * setFrom exLayout .dual (fill exLayout .dual (fun _ => 3)) t := by
    show exLayout.assemble _ t = 2 * exLayout.assemble _ t
    unfold Layout.assemble
    rw [Finset.mul_sum]
    apply Finset.sum_congr rfl
    intro l _
    split_ifs <;> ring
  rw [e, hr]
  norm_num

/-- The domain that consists of the element of rank 1 only: its shared dof is not listed by the owner, so it is not projected. -/
example : ¬ ∀ l : exLayout.Loc, l.1.val = 1 → (exLayout.own (exLayout.tdof l)).1.val = 1 := by
  intro h
  have := h ⟨(1 : Fin 2), (0 : Fin 2)⟩ rfl
  revert this
  decide

example : exLayout.avg (fun t => if t.1.val = 0 then 1 else 4) = 2 := by
  have ht : total exLayout = 3 := by decide
  rw [C74_avg _ _ (by rw [ht]; norm_num), ht, Fintype.sum_sigma]
  show (∑ r : Fin 2, ∑ i : Fin (![2, 1] r), if r.val = 0 then (1 : ℝ) else 4) / _ = 2
  rw [Fin.sum_univ_two]
  change ((∑ i : Fin 2, (1 : ℝ)) + ∑ i : Fin 1, (4 : ℝ)) / _ = 2
  simp
  norm_num

end Serac.C74
