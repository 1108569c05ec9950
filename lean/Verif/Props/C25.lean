import Verif.Model.BoundaryConditions
import Mathlib.Data.List.Induction
import Mathlib.Data.List.GetD
/-!
# C25: essential boundary condition bookkeeping

Spec.  `requested sp ops` is the set of dofs the calls ask to constrain: for attributes, all dofs of the given component on them; for dof
lists, the dofs.  `granted` is the same with "first definition wins": an attribute counts only if no earlier call named it.

Violation found: the attribute filter ignores components, so a second component (or a second field component function) on an attribute
already named is silently dropped (a warning is printed): `C25_second_component_wrong`.
-/

namespace Serac.C25
open Serac.BC

/-! ## Spec -/

/-- Dofs of a call with attributes, straight from the space. -/
def OnAttrs (nb : Numbering) (attrs : ℤ → Prop) (component : Option ℕ) (d : ℕ) : Prop :=
  d < nb.size ∧ (∃ a : ℕ, attrs a ∧ nb.on a d = true) ∧ ∀ c, component = some c → nb.comp d = c

/-- The attributes named by calls. -/
def Named (ops : List Op) (a : ℤ) : Prop := ∃ attrs c, Op.addAttrs attrs c ∈ ops ∧ a ∈ attrs

/-- What the calls ask for. -/
def Requested (sp : Space) (ops : List Op) (d : ℕ) : Prop :=
  (∃ attrs c, Op.addAttrs attrs c ∈ ops ∧ OnAttrs sp.tdofs (· ∈ attrs) c d) ∨ ∃ ds, Op.addDofs ds ∈ ops ∧ d ∈ ds

/-- What they get: each attribute belongs to the first call that names it. -/
def Granted (sp : Space) (ops : List Op) (d : ℕ) : Prop :=
  (∃ pre attrs c post, ops = pre ++ Op.addAttrs attrs c :: post ∧ OnAttrs sp.tdofs (fun a => a ∈ attrs ∧ ¬ Named pre a) c d) ∨
    ∃ ds, Op.addDofs ds ∈ ops ∧ d ∈ ds

/-! ## Helper lemmas -/

theorem mark_spec (mx : ℕ) (attrs : List ℤ) (m m' : List Bool) (h : mark mx attrs m = some m') (hm : m.length = mx) :
    m'.length = mx ∧ (∀ a ∈ attrs, 1 ≤ a ∧ a ≤ mx) ∧
      ∀ k < mx, (m'.getD k false = true ↔ m.getD k false = true ∨ ((k : ℤ) + 1) ∈ attrs) := by
  induction attrs generalizing m with
  | nil => rw [mark] at h; cases h; exact ⟨hm, by simp, by simp⟩
  | cons a as ih =>
    rw [mark] at h
    split at h
    · rename_i hr
      obtain ⟨h1, h2, h3⟩ := ih _ h (by rw [List.length_set]; exact hm)
      refine ⟨h1, ?_, fun k hk => ?_⟩
      · intro x hx
        rcases List.mem_cons.1 hx with rfl | hx
        · exact hr
        · exact h2 x hx
      · rw [h3 k hk, List.getD_eq_getElem _ _ (by rw [List.length_set, hm]; exact hk), List.getElem_set,
          List.getD_eq_getElem _ _ (by rw [hm]; exact hk), List.mem_cons]
        by_cases he : (a - 1).toNat = k
        · have : (k : ℤ) + 1 = a := by omega
          simp [he, this]
        · have : ¬ (k : ℤ) + 1 = a := by omega
          rw [if_neg he]; simp [this]
    · cases h

theorem mark_defined (mx : ℕ) (attrs : List ℤ) (m : List Bool) :
    (∃ m', mark mx attrs m = some m') ↔ ∀ a ∈ attrs, 1 ≤ a ∧ a ≤ mx := by
  induction attrs generalizing m with
  | nil => simp [mark]
  | cons a as ih =>
    rw [mark, List.forall_mem_cons]
    split
    · rename_i h; rw [ih]; exact ⟨fun g => ⟨h, g⟩, fun g => g.2⟩
    · rename_i h; exact ⟨fun ⟨_, g⟩ => (by cases g), fun g => absurd g.1 h⟩

theorem mem_ofAttrs (sp : Space) (attrs : List ℤ) (comp : Option ℕ) (c : Cond) (h : Cond.ofAttrs sp attrs comp = some c) (d : ℕ) :
    (d ∈ c.trueDofs ↔ OnAttrs sp.tdofs (· ∈ attrs) comp d) ∧ (d ∈ c.localDofs ↔ OnAttrs sp.ldofs (· ∈ attrs) comp d) := by
  unfold Cond.ofAttrs at h
  cases hm : mark sp.maxAttr attrs (List.replicate sp.maxAttr false) with
  | none => rw [hm] at h; cases h
  | some m =>
    rw [hm] at h
    cases h
    obtain ⟨h1, h2, h3⟩ := mark_spec _ _ _ _ hm (by simp)
    have key : ∀ nb : Numbering, d ∈ essential nb m comp ↔ OnAttrs nb (· ∈ attrs) comp d := by
      intro nb
      unfold essential OnAttrs
      rw [List.mem_filter, List.mem_range, Bool.and_eq_true, List.any_eq_true]
      refine and_congr Iff.rfl (and_congr ?_ ?_)
      · constructor
        · rintro ⟨k, hk, hb⟩
          rw [Bool.and_eq_true] at hb
          rw [List.mem_range, h1] at hk
          have := (h3 k hk).1 hb.1
          rw [List.getD_eq_getElem _ _ (by simpa using hk)] at this
          refine ⟨k + 1, ?_, hb.2⟩
          simpa using this
        · rintro ⟨a, ha, hon⟩
          obtain ⟨g1, g2⟩ := h2 a ha
          refine ⟨a - 1, ?_, ?_⟩
          · rw [List.mem_range, h1]; omega
          · rw [Bool.and_eq_true, (h3 (a - 1) (by omega)), show a - 1 + 1 = a by omega]
            exact ⟨Or.inr (by rw [show ((a - 1 : ℕ) : ℤ) + 1 = a by omega]; exact ha), hon⟩
      · cases comp with
        | none => simp
        | some c => simp
    exact ⟨key _, key _⟩

theorem mem_sortUnique (l : List ℕ) (d : ℕ) : d ∈ sortUnique l ↔ d ∈ l := by
  have key : ∀ (l : List ℕ) (a : ℕ), d ∈ l.destutter' (· ≠ ·) a ↔ d = a ∨ d ∈ l := by
    intro l
    induction l with
    | nil => intro a; simp
    | cons b l ih =>
      intro a
      by_cases hab : a = b
      · subst hab
        rw [List.destutter'_cons_neg l (by simp), ih]
        simp
      · rw [List.destutter'_cons_pos l hab, List.mem_cons, ih, List.mem_cons]
  unfold sortUnique
  rw [← List.mem_insertionSort (r := (· ≤ ·)) (x := d) (l := l)]
  cases l.insertionSort (· ≤ ·) with
  | nil => simp
  | cons a t => rw [List.destutter_cons', key]; simp

theorem sorted_sortUnique (l : List ℕ) : (sortUnique l).Pairwise (· < ·) := by
  have hs : (l.insertionSort (· ≤ ·)).Pairwise (· ≤ ·) := List.pairwise_insertionSort _ _
  unfold sortUnique
  have h1 : ((l.insertionSort (· ≤ ·)).destutter (· ≠ ·)).Pairwise (· ≤ ·) := hs.sublist (List.destutter_sublist _ _)
  have h2 := List.isChain_destutter (R := (· ≠ ·)) (l.insertionSort (· ≤ ·))
  rw [← List.isChain_iff_pairwise] at h1 ⊢
  exact List.isChain_iff_getElem.2 fun i hi => lt_of_le_of_ne (List.isChain_iff_getElem.1 h1 i hi) (List.isChain_iff_getElem.1 h2 i hi)

/-! ## The invariant -/

/-- The cache, when valid, is that of the registered conditions. -/
def CacheOk (m : Manager) : Prop :=
  m.valid = true → m.allTrue = sortUnique (m.conds.flatMap (·.trueDofs)) ∧ m.allLocal = sortUnique (m.conds.flatMap (·.localDofs))

structure Inv (sp : Space) (ops : List Op) (m : Manager) : Prop where
  cache : CacheOk m
  used : ∀ a, a ∈ m.attrsInUse ↔ Named ops a
  dofs : ∀ d, (∃ c ∈ m.conds, d ∈ c.trueDofs) ↔ Granted sp ops d

theorem named_snoc (ops : List Op) (op : Op) (a : ℤ) :
    Named (ops ++ [op]) a ↔ Named ops a ∨ ∃ attrs c, op = .addAttrs attrs c ∧ a ∈ attrs := by
  unfold Named
  simp only [List.mem_append, List.mem_singleton]
  constructor
  · rintro ⟨at', c, h | h, ha⟩
    · exact Or.inl ⟨at', c, h, ha⟩
    · exact Or.inr ⟨at', c, h.symm, ha⟩
  · rintro (⟨at', c, h, ha⟩ | ⟨at', c, h, ha⟩)
    · exact ⟨at', c, Or.inl h, ha⟩
    · exact ⟨at', c, Or.inr h.symm, ha⟩

theorem granted_snoc (sp : Space) (ops : List Op) (op : Op) (d : ℕ) :
    Granted sp (ops ++ [op]) d ↔ Granted sp ops d ∨
      (∃ attrs c, op = .addAttrs attrs c ∧ OnAttrs sp.tdofs (fun a => a ∈ attrs ∧ ¬ Named ops a) c d) ∨ ∃ ds, op = .addDofs ds ∧ d ∈ ds := by
  unfold Granted
  constructor
  · rintro (⟨pre, attrs, c, post, h, hd⟩ | ⟨ds, h, hd⟩)
    · rcases List.eq_nil_or_concat post with rfl | ⟨post', x, rfl⟩
      · obtain ⟨rfl, h2⟩ := List.append_inj' h rfl
        right; left; exact ⟨attrs, c, by simpa using h2, hd⟩
      · left; left
        refine ⟨pre, attrs, c, post', ?_, hd⟩
        have h' : ops ++ [op] = (pre ++ Op.addAttrs attrs c :: post') ++ [x] := by rw [h]; simp
        exact (List.append_inj' h' rfl).1
    · rcases List.mem_append.1 h with h | h
      · left; right; exact ⟨ds, h, hd⟩
      · right; right; exact ⟨ds, (List.mem_singleton.1 h).symm, hd⟩
  · rintro ((⟨pre, attrs, c, post, h, hd⟩ | ⟨ds, h, hd⟩) | ⟨attrs, c, rfl, hd⟩ | ⟨ds, rfl, hd⟩)
    · left; exact ⟨pre, attrs, c, post ++ [op], by rw [h]; simp, hd⟩
    · right; exact ⟨ds, List.mem_append_left _ h, hd⟩
    · left; exact ⟨ops, attrs, c, [], rfl, hd⟩
    · right; exact ⟨ds, by simp, hd⟩

theorem run_snoc (sp : Space) (m : Manager) (ops : List Op) (op : Op) :
    Manager.run sp m (ops ++ [op]) = (Manager.run sp m ops).bind fun m' => m'.step sp op := by
  induction ops generalizing m with
  | nil => simp [Manager.run]
  | cons o ops ih =>
    rw [List.cons_append, Manager.run, Manager.run]
    cases m.step sp o with
    | none => rfl
    | some m' => exact ih m'

theorem update_cache (m : Manager) (h : CacheOk m) : CacheOk (if m.valid then m else m.updateAllDofs) ∧
    (if m.valid then m else m.updateAllDofs).valid = true ∧ (if m.valid then m else m.updateAllDofs).conds = m.conds ∧
    (if m.valid then m else m.updateAllDofs).attrsInUse = m.attrsInUse := by
  by_cases hv : m.valid
  · simp only [hv, if_true]; exact ⟨h, trivial, trivial, trivial⟩
  · simp only [hv]
    exact ⟨fun _ => ⟨rfl, rfl⟩, rfl, rfl, rfl⟩

theorem run_inv (sp : Space) (ops : List Op) (m : Manager) (h : Manager.run sp .init ops = some m) : Inv sp ops m := by
  induction ops using List.reverseRecOn generalizing m with
  | nil =>
    cases h
    refine ⟨fun h => (by cases h), fun a => ?_, fun d => ?_⟩
    · simp [Manager.init, Named]
    · constructor
      · rintro ⟨c, hc, -⟩; cases hc
      · rintro (⟨pre, attrs, c, post, h, -⟩ | ⟨ds, h, -⟩)
        · simp at h
        · cases h
  | append_singleton ops op ih =>
    rw [run_snoc] at h
    cases hm : Manager.run sp .init ops with
    | none => rw [hm] at h; cases h
    | some m0 =>
      rw [hm] at h
      obtain ⟨hc, hu, hd⟩ := ih m0 hm
      have hquery : op = .queryTrue ∨ op = .queryLocal → m = (if m0.valid then m0 else m0.updateAllDofs) := by
        rintro (rfl | rfl) <;> · cases h; rfl
      cases op with
      | addAttrs attrs comp =>
        change m0.addAttrs sp attrs comp = some m at h
        unfold Manager.addAttrs at h
        cases hcond : Cond.ofAttrs sp (attrs.filter (· ∉ m0.attrsInUse)) comp with
        | none => rw [hcond] at h; cases h
        | some c =>
          rw [hcond] at h; cases h
          refine ⟨fun h => (by cases h), fun a => ?_, fun d => ?_⟩
          · rw [named_snoc]
            show a ∈ m0.attrsInUse ++ attrs ↔ _
            rw [List.mem_append, hu]
            exact or_congr Iff.rfl ⟨fun h => ⟨_, _, rfl, h⟩, fun ⟨_, _, h, ha⟩ => by cases h; exact ha⟩
          · rw [granted_snoc, ← hd]
            have hmem := (mem_ofAttrs sp _ comp c hcond d).1
            have heq : OnAttrs sp.tdofs (· ∈ attrs.filter (· ∉ m0.attrsInUse)) comp d ↔
                OnAttrs sp.tdofs (fun a => a ∈ attrs ∧ ¬ Named ops a) comp d := by
              unfold OnAttrs
              simp only [List.mem_filter, decide_eq_true_eq, hu]
            rw [heq] at hmem
            show (∃ x ∈ m0.conds ++ [c], d ∈ x.trueDofs) ↔ _
            constructor
            · rintro ⟨x, hx, hxd⟩
              rcases List.mem_append.1 hx with hx | hx
              · exact Or.inl ⟨x, hx, hxd⟩
              · rw [List.mem_singleton.1 hx] at hxd; exact Or.inr (Or.inl ⟨_, _, rfl, hmem.1 hxd⟩)
            · rintro (⟨x, hx, hxd⟩ | ⟨_, _, h, hx⟩ | ⟨_, h, -⟩)
              · exact ⟨x, List.mem_append_left _ hx, hxd⟩
              · cases h; exact ⟨c, by simp, hmem.2 hx⟩
              · cases h
      | addDofs ds =>
        cases h
        refine ⟨fun h => (by cases h), fun a => ?_, fun d => ?_⟩
        · rw [named_snoc]
          show a ∈ m0.attrsInUse ↔ _
          rw [hu]
          exact ⟨Or.inl, fun h => h.elim id fun ⟨_, _, h, _⟩ => by cases h⟩
        · rw [granted_snoc, ← hd]
          show (∃ x ∈ m0.conds ++ [Cond.ofDofs sp ds], d ∈ x.trueDofs) ↔ _
          constructor
          · rintro ⟨x, hx, hxd⟩
            rcases List.mem_append.1 hx with hx | hx
            · exact Or.inl ⟨x, hx, hxd⟩
            · rw [List.mem_singleton.1 hx] at hxd; exact Or.inr (Or.inr ⟨_, rfl, hxd⟩)
          · rintro (⟨x, hx, hxd⟩ | ⟨_, _, h, -⟩ | ⟨_, h, hx⟩)
            · exact ⟨x, List.mem_append_left _ hx, hxd⟩
            · cases h
            · cases h; exact ⟨Cond.ofDofs sp ds, by simp, hx⟩
      | queryTrue =>
        rw [hquery (Or.inl rfl)]
        obtain ⟨h1, -, h3, h4⟩ := update_cache m0 hc
        refine ⟨h1, fun a => ?_, fun d => ?_⟩
        · rw [h4, hu, named_snoc]; exact ⟨Or.inl, fun h => h.elim id fun ⟨_, _, h, _⟩ => by cases h⟩
        · rw [h3, hd, granted_snoc]
          exact ⟨Or.inl, fun h => h.elim id (fun h => h.elim (fun ⟨_, _, h, _⟩ => by cases h) fun ⟨_, h, _⟩ => by cases h)⟩
      | queryLocal =>
        rw [hquery (Or.inr rfl)]
        obtain ⟨h1, -, h3, h4⟩ := update_cache m0 hc
        refine ⟨h1, fun a => ?_, fun d => ?_⟩
        · rw [h4, hu, named_snoc]; exact ⟨Or.inl, fun h => h.elim id fun ⟨_, _, h, _⟩ => by cases h⟩
        · rw [h3, hd, granted_snoc]
          exact ⟨Or.inl, fun h => h.elim id (fun h => h.elim (fun ⟨_, _, h, _⟩ => by cases h) fun ⟨_, h, _⟩ => by cases h)⟩

/-! ## The property -/

/-- After any sequence of additions and queries, a query returns a strictly increasing list (sorted, no duplicates) of exactly the dofs of
the registered conditions: never a stale one. -/
theorem C25_query (sp : Space) (ops : List Op) (m : Manager) (h : Manager.run sp .init ops = some m) :
    (m.queryTrue.2.Pairwise (· < ·) ∧ ∀ d, d ∈ m.queryTrue.2 ↔ ∃ c ∈ m.conds, d ∈ c.trueDofs) ∧
    (m.queryLocal.2.Pairwise (· < ·) ∧ ∀ d, d ∈ m.queryLocal.2 ↔ ∃ c ∈ m.conds, d ∈ c.localDofs) := by
  obtain ⟨h1, h2, h3, -⟩ := update_cache m (run_inv sp ops m h).cache
  obtain ⟨e1, e2⟩ := h1 h2
  rw [h3] at e1 e2
  unfold Manager.queryTrue Manager.queryLocal
  dsimp only
  rw [e1, e2]
  refine ⟨⟨sorted_sortUnique _, fun d => ?_⟩, ⟨sorted_sortUnique _, fun d => ?_⟩⟩
  · rw [mem_sortUnique, List.mem_flatMap]
  · rw [mem_sortUnique, List.mem_flatMap]

/-- The constrained dofs in terms of the calls alone: each attribute counts for the first call that names it; dof lists always count. -/
theorem C25_granted (sp : Space) (ops : List Op) (m : Manager) (h : Manager.run sp .init ops = some m) (d : ℕ) :
    d ∈ m.queryTrue.2 ↔ Granted sp ops d := by
  rw [(C25_query sp ops m h).1.2, (run_inv sp ops m h).dofs]

/-- No call constrains more than was asked for; and everything asked for is constrained when no attribute is named twice. -/
theorem C25_requested_partial (sp : Space) (ops : List Op) (m : Manager) (h : Manager.run sp .init ops = some m) (d : ℕ) :
    (d ∈ m.queryTrue.2 → Requested sp ops d) ∧
    ((∀ pre attrs c post, ops = pre ++ Op.addAttrs attrs c :: post → ∀ a ∈ attrs, ¬ Named pre a) →
      Requested sp ops d → d ∈ m.queryTrue.2) := by
  rw [C25_granted sp ops m h]
  constructor
  · rintro (⟨pre, attrs, c, post, rfl, h1, ⟨a, ha, hon⟩, h3⟩ | h)
    · exact Or.inl ⟨attrs, c, by simp, h1, ⟨a, ha.1, hon⟩, h3⟩
    · exact Or.inr h
  · rintro hdis (⟨attrs, c, hmem, h1, ⟨a, ha, hon⟩, h3⟩ | h)
    · obtain ⟨pre, post, rfl⟩ := List.append_of_mem hmem
      exact Or.inl ⟨pre, attrs, c, post, rfl, h1, ⟨a, ⟨ha, hdis _ _ _ _ rfl a ha⟩, hon⟩, h3⟩
    · exact Or.inr h

/-- A later call whose attributes were all named before changes nothing, whatever component it is for: a request to fix the y component on
a boundary where x is fixed already is lost. -/
theorem C25_second_component_wrong (sp : Space) (ops : List Op) (attrs : List ℤ) (comp : Option ℕ) (hall : ∀ a ∈ attrs, Named ops a)
    (m : Manager) (h : Manager.run sp .init ops = some m) :
    ∃ m', Manager.run sp .init (ops ++ [.addAttrs attrs comp]) = some m' ∧ m'.queryTrue.2 = m.queryTrue.2 := by
  have hinv := run_inv sp ops m h
  have hf : attrs.filter (· ∉ m.attrsInUse) = [] := by
    rw [List.filter_eq_nil_iff]; intro a ha; simp [hinv.used a, hall a ha]
  obtain ⟨c, hc⟩ : ∃ c, Cond.ofAttrs sp [] comp = some c := ⟨_, rfl⟩
  obtain ⟨m', hm'⟩ : ∃ m', Manager.run sp .init (ops ++ [.addAttrs attrs comp]) = some m' := by
    rw [run_snoc, h]
    show ∃ m', m.addAttrs sp attrs comp = some m'
    unfold Manager.addAttrs
    rw [hf, hc]
    exact ⟨_, rfl⟩
  refine ⟨m', hm', ?_⟩
  have hs1 := (C25_query sp _ m' hm').1.1
  have hs2 := (C25_query sp _ m h).1.1
  refine List.Perm.eq_of_pairwise (fun a b _ _ h1 h2 => absurd h1 (by omega)) hs1 hs2 ?_
  rw [List.perm_ext_iff_of_nodup (hs1.imp fun h => Nat.ne_of_lt h) (hs2.imp fun h => Nat.ne_of_lt h)]
  intro d
  rw [C25_granted sp _ m' hm', C25_granted sp _ m h, granted_snoc]
  constructor
  · rintro (h | ⟨_, _, he, -, ⟨a, ha, -⟩, -⟩ | ⟨_, he, -⟩)
    · exact h
    · cases he; exact absurd (hall _ ha.1) ha.2
    · cases he
  · exact Or.inl

/-- The only undefined behaviour: an attribute, not named before, outside `1 .. max`. -/
theorem C25_undefined (sp : Space) (ops : List Op) (m : Manager) (h : Manager.run sp .init ops = some m) (attrs : List ℤ) (comp : Option ℕ) :
    Manager.run sp .init (ops ++ [.addAttrs attrs comp]) = none ↔ ∃ a ∈ attrs, ¬ Named ops a ∧ ¬ (1 ≤ a ∧ a ≤ sp.maxAttr) := by
  have hinv := run_inv sp ops m h
  rw [run_snoc, h]
  show m.addAttrs sp attrs comp = none ↔ _
  unfold Manager.addAttrs Cond.ofAttrs
  rw [Option.map_eq_none_iff, Option.map_eq_none_iff]
  have := mark_defined sp.maxAttr (attrs.filter (· ∉ m.attrsInUse)) (List.replicate sp.maxAttr false)
  rw [← Option.not_isSome_iff_eq_none, Option.isSome_iff_exists, this]
  simp only [List.mem_filter, decide_eq_true_eq, hinv.used]
  push Not
  exact ⟨fun ⟨a, h1, h2⟩ => ⟨a, h1.1, h1.2, h2⟩, fun ⟨a, h1, h2, h3⟩ => ⟨a, ⟨h1, h2⟩, h3⟩⟩

/-! ## Non-vacuity: two nodes, two components; attribute 1 holds node 0, attribute 2 holds node 1 -/

def exNb : Numbering := { size := 4, comp := fun d => d % 2, on := fun a d => a == d / 2 + 1 }
def exSp : Space := { maxAttr := 2, tdofs := exNb, ldofs := exNb, localOfTrue := id }

example : ((Manager.run exSp .init [.addAttrs [1] (some 0), .queryTrue, .addDofs [3, 3, 0]]).map (·.queryTrue.2)) = some [0, 3] := by decide +kernel
/-- x fixed on attribute 1, then y on the same attribute: y is lost although dof 1 was requested. -/
example : ((Manager.run exSp .init [.addAttrs [1] (some 0), .addAttrs [1] (some 1)]).map (·.queryTrue.2)) = some [0] ∧
    Requested exSp [.addAttrs [1] (some 0), .addAttrs [1] (some 1)] 1 := by
  refine ⟨by decide +kernel, Or.inl ⟨[1], some 1, by simp, ?_, ⟨1, by simp, by decide⟩, fun c h => ?_⟩⟩
  · decide
  · cases h; decide

end Serac.C25
