import Verif.Model.Parameters
import Verif.Props.C26
import Mathlib.Tactic.Linarith
/-!
# C68: parameter fields take effect, and the warm start's Jacobian is that of the step before

Spec.  `Current zero n ops`: the value of each parameter after the calls `ops`, straight from the history: the last accepted value, zero if
none.  Residuals and reactions of a step must use these.  The warm start is documented to use "the previously solved Jacobian": the parameter
values of the step before (`Before`).

Violation found: `previous_state` is assigned only while the cycle is 0, so from the third step on the Jacobian is that of the parameters of
the first step (`C68_previous`, `C68_previous_wrong`), and after a restart at a later cycle that of zero parameters
(`C68_restart_wrong`).
-/

namespace Serac.C68
open Serac.Parameters

/-! ## Spec -/

/-- Value of parameter `i` after a history of calls. -/
def current {V : Type} (zero : V) (i : ℕ) (ops : List (Op V)) : V :=
  ops.foldl (fun v op => match op with | .set j f => if j = i then f.val else v | _ => v) zero

/-- The cycle counter after a history of calls. -/
def cycleAfter {V : Type} (c : ℤ) (ops : List (Op V)) : ℤ :=
  ops.foldl (fun c op => match op with | .set _ _ => c | .advance => c + 1 | .reset k => k) c

/-- The parameter values used in the last step of a history, if there was one. -/
def Before {V : Type} (zero : V) (n : ℕ) (ops : List (Op V)) (vals : List V) : Prop :=
  ∃ pre post, ops = pre ++ .advance :: post ∧ (∀ op ∈ post, op ≠ .advance) ∧ vals = (List.range n).map fun i => current zero i pre

/-- `pre` is followed by a step at cycle 0, and no later step is at cycle 0. -/
def LastAtZero {V : Type} (c : ℤ) (ops pre : List (Op V)) : Prop :=
  ∃ post, ops = pre ++ .advance :: post ∧ cycleAfter c pre = 0 ∧
    ∀ a b, post = a ++ .advance :: b → cycleAfter c (pre ++ .advance :: a) ≠ 0

/-! ## Invariant -/

variable {V : Type}

theorem current_snoc (zero : V) (i : ℕ) (ops : List (Op V)) (op : Op V) : current zero i (ops ++ [op]) =
    match op with | .set j f => if j = i then f.val else current zero i ops | _ => current zero i ops := by
  unfold current
  rw [List.foldl_append]
  rfl

theorem cycle_snoc (c : ℤ) (ops : List (Op V)) (op : Op V) : cycleAfter c (ops ++ [op]) =
    match op with | .set _ _ => cycleAfter c ops | .advance => cycleAfter c ops + 1 | .reset k => k := by
  unfold cycleAfter
  rw [List.foldl_append]
  rfl

theorem run_snoc (m : Module V) (ops : List (Op V)) (op : Op V) : m.run (ops ++ [op]) =
    (m.run ops).bind fun r => (r.1.step op).map fun q => (q.1, r.2 ++ q.2) := by
  induction ops generalizing m with
  | nil =>
    rw [List.nil_append]
    simp only [Module.run, Option.map_some, Option.bind_some, List.nil_append, List.append_nil]
    cases m.step op <;> rfl
  | cons a ops ih =>
    rw [List.cons_append]
    simp only [Module.run]
    cases m.step a with
    | none => rfl
    | some r =>
      simp only [Option.bind_some, ih]
      cases r.1.run ops with
      | none => rfl
      | some q =>
        simp only [Option.bind_some, Option.map_some]
        cases q.1.step op with
        | none => rfl
        | some t => simp

/-- What holds after any history: the current values, the cycle, the number of parameters; and the previous values are those of the last
step at cycle 0, or zero if there was none. -/
structure Inv (c : ℤ) (zero : V) (n : ℕ) (ops : List (Op V)) (m : Module V) : Prop where
  cycle : m.cycle = cycleAfter c ops
  cur : m.params.map (·.state.val) = (List.range n).map fun i => current zero i ops
  prev : (∃ pre, LastAtZero c ops pre ∧ m.params.map (·.previous.val) = (List.range n).map fun i => current zero i pre) ∨
    ((∀ pre, ¬ LastAtZero c ops pre) ∧ m.params.map (·.previous.val) = (List.range n).map fun _ => zero)

/-- A call that is no step at cycle 0 does not change which step was the last at cycle 0. -/
theorem lastAtZero_snoc (c : ℤ) (ops pre : List (Op V)) (op : Op V) (h : ¬ (op = .advance ∧ cycleAfter c ops = 0)) :
    LastAtZero c (ops ++ [op]) pre ↔ LastAtZero c ops pre := by
  constructor
  · rintro ⟨post, he, h0, hno⟩
    rcases List.eq_nil_or_concat post with rfl | ⟨post', x, rfl⟩
    · have := List.append_inj' (show ops ++ [op] = pre ++ [Op.advance] from he) rfl
      obtain ⟨rfl, h2⟩ := this
      exact absurd ⟨by simpa using h2, h0⟩ h
    · have he' : ops ++ [op] = (pre ++ .advance :: post') ++ [x] := by rw [he]; simp
      obtain ⟨rfl, h2⟩ := List.append_inj' he' rfl
      refine ⟨post', rfl, h0, fun a b hab => hno a (b ++ [x]) ?_⟩
      rw [hab]; simp
  · rintro ⟨post, rfl, h0, hno⟩
    refine ⟨post ++ [op], by simp, h0, fun a b hab => ?_⟩
    rcases List.eq_nil_or_concat b with rfl | ⟨b', x, rfl⟩
    · obtain ⟨h1, h2⟩ := List.append_inj' (show post ++ [op] = a ++ [Op.advance] from hab) rfl
      subst h1
      exact fun hz => h ⟨by simpa using h2, hz⟩
    · have hab' : post ++ [op] = (a ++ .advance :: b') ++ [x] := by rw [hab]; simp
      obtain ⟨h1, -⟩ := List.append_inj' hab' rfl
      exact hno a b' h1

theorem inv_keep {c : ℤ} {zero : V} {n : ℕ} {ops : List (Op V)} {m m' : Module V} (h : Inv c zero n ops m) (op : Op V)
    (hop : ¬ (op = .advance ∧ cycleAfter c ops = 0)) (hc : m'.cycle = cycleAfter c (ops ++ [op]))
    (hs : m'.params.map (·.state.val) = (List.range n).map fun i => current zero i (ops ++ [op]))
    (hp : m'.params.map (·.previous.val) = m.params.map (·.previous.val)) : Inv c zero n (ops ++ [op]) m' := by
  refine ⟨hc, hs, ?_⟩
  rw [hp]
  rcases h.prev with ⟨pre, h1, h2⟩ | ⟨h1, h2⟩
  · exact Or.inl ⟨pre, (lastAtZero_snoc c ops pre op hop).2 h1, h2⟩
  · exact Or.inr ⟨fun pre hp => h1 pre ((lastAtZero_snoc c ops pre op hop).1 hp), h2⟩

theorem set_inv {c : ℤ} {zero : V} {n : ℕ} {ops : List (Op V)} {m m' : Module V} (h : Inv c zero n ops m) (i : ℕ) (f : FEField V)
    (hm : m.setParameter i f = some m') : Inv c zero n (ops ++ [.set i f]) m' := by
  unfold Module.setParameter at hm
  cases hp : m.params[i]? with
  | none => rw [hp] at hm; cases hm
  | some p =>
    rw [hp] at hm
    simp only at hm
    split at hm
    · cases hm
    split at hm
    · cases hm
    split at hm
    · cases hm
    cases hm
    obtain ⟨hi, hpi⟩ := List.getElem?_eq_some_iff.1 hp
    refine inv_keep h _ (by simp) (by rw [cycle_snoc]; exact h.cycle) ?_ ?_
    · apply List.ext_getElem?
      intro k
      have hk := congrArg (fun l => l[k]?) h.cur
      simp only [List.getElem?_map, List.getElem?_set, current_snoc] at hk ⊢
      by_cases hki : i = k
      · subst hki
        have hin : i < n := by
          by_contra hn
          rw [hp, List.getElem?_eq_none (by simpa using hn)] at hk
          cases hk
        simp [hi, hin]
      · simp only [hki, if_false]
        rw [hk]
        by_cases hkn : k < n
        · simp [hkn, hki]
        · simp [hkn]
    · apply List.ext_getElem?
      intro k
      simp only [List.getElem?_map, List.getElem?_set]
      by_cases hki : i = k
      · subst hki
        simp [hi, hpi]
      · simp [hki]

theorem advance_inv {c : ℤ} {zero : V} {n : ℕ} {ops : List (Op V)} {m : Module V} (h : Inv c zero n ops m) :
    Inv c zero n (ops ++ [.advance]) m.advance.1 ∧ m.advance.2.residual = (List.range n).map (fun i => current zero i ops) ∧
      m.advance.2.jacobian = m.advance.1.params.map (·.previous.val) := by
  have hcyc : m.advance.1.cycle = cycleAfter c (ops ++ [.advance]) := by
    rw [cycle_snoc]; show m.cycle + 1 = _; rw [h.cycle]
  have hcur : ∀ i, current zero i (ops ++ [Op.advance]) = current zero i ops := fun i => current_snoc _ _ _ _
  by_cases h0 : m.cycle = 0
  · have e : m.advance = ({ m with cycle := m.cycle + 1, params := m.params.map fun p => { p with previous := { p.previous with val := p.state.val } } },
        ⟨(m.params.map fun p => ({ p with previous := { p.previous with val := p.state.val } } : Info V)).map (·.state.val),
         (m.params.map fun p => ({ p with previous := { p.previous with val := p.state.val } } : Info V)).map (·.previous.val)⟩) := by
      unfold Module.advance; simp only [h0, if_true]
    have hst : m.advance.1.params.map (·.state.val) = m.params.map (·.state.val) := by
      rw [e]; simp
    have hpv : m.advance.1.params.map (·.previous.val) = m.params.map (·.state.val) := by
      rw [e]; simp
    refine ⟨⟨hcyc, ?_, Or.inl ⟨ops, ⟨[], rfl, by rw [← h.cycle, h0], fun a b hab => by simp at hab⟩, ?_⟩⟩, ?_, ?_⟩
    · rw [hst, h.cur]; simp only [hcur]
    · rw [hpv, h.cur]
    · rw [e, ← h.cur]; simp
    · rw [e]
  · have e : m.advance = ({ m with cycle := m.cycle + 1 }, ⟨m.params.map (·.state.val), m.params.map (·.previous.val)⟩) := by
      unfold Module.advance; simp only [h0, if_false]
    refine ⟨inv_keep h _ (fun hh => h0 (by rw [h.cycle]; exact hh.2)) hcyc ?_ ?_, ?_, ?_⟩
    · rw [e]; simp only [hcur]; exact h.cur
    · rw [e]
    · rw [e]; exact h.cur
    · rw [e]

theorem init_inv (mesh : ℕ) (c : ℤ) (zero : V) (spaces : List (ℕ × ℕ)) :
    Inv c zero spaces.length [] (Module.init mesh c zero spaces) := by
  refine ⟨rfl, ?_, Or.inr ⟨fun pre ⟨post, h, _⟩ => by simp at h, ?_⟩⟩
  · simp only [Module.init, List.map_map]
    apply List.ext_getElem (by simp)
    intro k h1 h2
    simp [current]
  · simp only [Module.init, List.map_map]
    apply List.ext_getElem (by simp)
    intro k h1 h2
    simp

theorem run_inv (mesh : ℕ) (c : ℤ) (zero : V) (spaces : List (ℕ × ℕ)) (ops : List (Op V)) (m : Module V) (us : List (Use V))
    (h : (Module.init mesh c zero spaces).run ops = some (m, us)) : Inv c zero spaces.length ops m := by
  induction ops using List.reverseRecOn generalizing m us with
  | nil => cases h; exact init_inv mesh c zero spaces
  | append_singleton ops op ih =>
    rw [run_snoc] at h
    obtain ⟨r, hr, hs⟩ := Option.bind_eq_some_iff.1 h
    obtain ⟨q, hq, he⟩ := Option.map_eq_some_iff.1 hs
    have hi := ih r.1 r.2 hr
    cases op with
    | set i f =>
      obtain ⟨m', hm', rfl⟩ := Option.map_eq_some_iff.1 hq
      cases he
      exact set_inv hi i f hm'
    | advance =>
      cases hq
      cases he
      exact (advance_inv hi).1
    | reset k =>
      cases hq
      cases he
      refine inv_keep hi _ (by simp) (by rw [cycle_snoc]; rfl) ?_ rfl
      have : ∀ i, current zero i (ops ++ [Op.reset k]) = current zero i ops := fun i => current_snoc _ _ _ _
      simp only [this]
      exact hi.cur

/-! ## Theorems -/

/-- **Current values**: whatever was called before, a step evaluates its residual with the last value set for each parameter. -/
theorem C68_current (mesh : ℕ) (c : ℤ) (zero : V) (spaces : List (ℕ × ℕ)) (ops : List (Op V)) (m : Module V) (us : List (Use V))
    (h : (Module.init mesh c zero spaces).run ops = some (m, us)) :
    m.advance.2.residual = (List.range spaces.length).map fun i => current zero i ops :=
  (advance_inv (run_inv mesh c zero spaces ops m us h)).2.1

/-- **Previous values**: the Jacobian of the warm start of a step uses the parameter values of the last step taken at cycle 0 (this one
included), and zeros if there was none. -/
theorem C68_previous (mesh : ℕ) (c : ℤ) (zero : V) (spaces : List (ℕ × ℕ)) (ops : List (Op V)) (m : Module V) (us : List (Use V))
    (h : (Module.init mesh c zero spaces).run ops = some (m, us)) :
    (∀ pre, LastAtZero c (ops ++ [.advance]) pre →
      m.advance.2.jacobian = (List.range spaces.length).map fun i => current zero i pre) ∧
    ((∀ pre, ¬ LastAtZero c (ops ++ [.advance]) pre) → m.advance.2.jacobian = (List.range spaces.length).map fun _ => zero) := by
  obtain ⟨h1, -, h3⟩ := advance_inv (run_inv mesh c zero spaces ops m us h)
  rw [h3]
  have uniq : ∀ pre pre', LastAtZero c (ops ++ [.advance]) pre → LastAtZero c (ops ++ [.advance]) pre' → pre = pre' := by
    rintro pre pre' ⟨post, e, z, no⟩ ⟨post', e', z', no'⟩
    rw [e] at e'
    rcases List.append_eq_append_iff.1 e' with ⟨a, ha, hb⟩ | ⟨a, ha, hb⟩
    · cases a with
      | nil => simpa using ha.symm
      | cons x a =>
        rw [List.cons_append, List.cons.injEq] at hb
        exact absurd z' (by rw [ha, ← hb.1]; exact no a post' hb.2)
    · cases a with
      | nil => simpa using ha
      | cons x a =>
        rw [List.cons_append, List.cons.injEq] at hb
        exact absurd z (by rw [ha, ← hb.1]; exact no' a post hb.2)
  rcases h1.prev with ⟨pre, hp, hv⟩ | ⟨hno, hv⟩
  · exact ⟨fun pre' hp' => by rw [hv, uniq pre pre' hp hp'], fun hn => absurd hp (hn pre)⟩
  · exact ⟨fun pre' hp' => absurd hp' (hno pre'), fun _ => hv⟩

/-- The shapes of the parameters never change. -/
theorem run_shape (mesh : ℕ) (c : ℤ) (zero : V) (spaces : List (ℕ × ℕ)) (ops : List (Op V)) (m : Module V) (us : List (Use V))
    (h : (Module.init mesh c zero spaces).run ops = some (m, us)) :
    m.mesh = mesh ∧ m.params.map (fun p => (p.state.mesh, p.state.space, p.state.size)) = spaces.map fun q => (mesh, q.1, q.2) := by
  induction ops using List.reverseRecOn generalizing m us with
  | nil => cases h; exact ⟨rfl, by simp [Module.init]⟩
  | append_singleton ops op ih =>
    rw [run_snoc] at h
    obtain ⟨r, hr, hs⟩ := Option.bind_eq_some_iff.1 h
    obtain ⟨q, hq, he⟩ := Option.map_eq_some_iff.1 hs
    obtain ⟨h1, h2⟩ := ih r.1 r.2 hr
    cases op with
    | set i f =>
      obtain ⟨m', hm', rfl⟩ := Option.map_eq_some_iff.1 hq
      cases he
      unfold Module.setParameter at hm'
      cases hp : r.1.params[i]? with
      | none => rw [hp] at hm'; cases hm'
      | some p =>
        rw [hp] at hm'
        simp only at hm'
        split at hm'
        · cases hm'
        split at hm'
        · cases hm'
        split at hm'
        · cases hm'
        cases hm'
        obtain ⟨hi, hpi⟩ := List.getElem?_eq_some_iff.1 hp
        refine ⟨h1, Eq.trans ?_ h2⟩
        apply List.ext_getElem?
        intro k
        simp only [List.getElem?_map, List.getElem?_set]
        by_cases hki : i = k
        · subst hki; simp [hi, hpi]
        · simp [hki]
    | advance =>
      cases hq
      cases he
      refine ⟨h1, Eq.trans ?_ h2⟩
      unfold Module.advance
      by_cases h0 : r.1.cycle = 0 <;> simp [h0]
    | reset k =>
      cases hq
      cases he
      exact ⟨h1, h2⟩

/-- **What is accepted**: whatever was called before, `setParameter` accepts a field exactly if the index exists and the field has the mesh,
the space and the size of that parameter. -/
theorem C68_accept (mesh : ℕ) (c : ℤ) (zero : V) (spaces : List (ℕ × ℕ)) (ops : List (Op V)) (m : Module V) (us : List (Use V))
    (h : (Module.init mesh c zero spaces).run ops = some (m, us)) (i : ℕ) (f : FEField V) :
    (∃ m', m.setParameter i f = some m') ↔ spaces[i]? = some (f.space, f.size) ∧ f.mesh = mesh := by
  obtain ⟨h1, h2⟩ := run_shape mesh c zero spaces ops m us h
  have hk := congrArg (fun l => l[i]?) h2
  simp only [List.getElem?_map] at hk
  unfold Module.setParameter
  cases hp : m.params[i]? with
  | none =>
    rw [hp] at hk
    have : spaces[i]? = none := by
      cases hq : spaces[i]? with
      | none => rfl
      | some q => rw [hq] at hk; cases hk
    simp [this]
  | some p =>
    rw [hp] at hk
    cases hq : spaces[i]? with
    | none => rw [hq] at hk; cases hk
    | some q =>
      rw [hq] at hk
      simp only [Option.map_some, Option.some.injEq, Prod.mk.injEq] at hk
      obtain ⟨e1, e2, e3⟩ := hk
      simp only [h1, e1, e2, e3, Option.some.injEq]
      constructor
      · rintro ⟨m', hm'⟩
        split at hm'
        · cases hm'
        split at hm'
        · cases hm'
        split at hm'
        · cases hm'
        rename_i a b d
        have d := (not_not.1 d).2
        exact ⟨Prod.ext d.symm (not_not.1 b).symm, not_not.1 a⟩
      · rintro ⟨hq, hm⟩
        subst hq
        simp [hm]

/-- No call resets the module. -/
def NoReset (ops : List (Op V)) : Prop := ∀ op ∈ ops, ∀ k, op ≠ .reset k

/-- Without resets the cycle never decreases, and grows with every step. -/
theorem cycle_mono (c : ℤ) (ops : List (Op V)) (h : NoReset ops) : c ≤ cycleAfter c ops ∧ (.advance ∈ ops → c < cycleAfter c ops) := by
  induction ops using List.reverseRecOn with
  | nil => simp [cycleAfter]
  | append_singleton ops op ih =>
    obtain ⟨h1, h2⟩ := ih fun o ho => h o (List.mem_append_left _ ho)
    rw [cycle_snoc]
    cases op with
    | set i f => exact ⟨h1, fun hm => h2 (by simpa using hm)⟩
    | advance => exact ⟨by show c ≤ cycleAfter c ops + 1; omega, fun _ => by show c < cycleAfter c ops + 1; omega⟩
    | reset k => exact absurd rfl (h (.reset k) (by simp) k)

theorem cycle_same (c : ℤ) (ops : List (Op V)) (h : NoReset ops) (hno : .advance ∉ ops) : cycleAfter c ops = c := by
  induction ops using List.reverseRecOn with
  | nil => rfl
  | append_singleton ops op ih =>
    rw [cycle_snoc]
    have := ih (fun o ho => h o (List.mem_append_left _ ho)) (fun hm => hno (List.mem_append_left _ hm))
    cases op with
    | set i f => exact this
    | advance => simp at hno
    | reset k => exact absurd rfl (h (.reset k) (by simp) k)

/-- In an analysis from cycle 0 without resets the Jacobian is always that of the parameters of the first step. -/
theorem jacobian_first (mesh : ℕ) (zero : V) (spaces : List (ℕ × ℕ)) (first rest : List (Op V)) (hf : .advance ∉ first)
    (hr : NoReset (first ++ .advance :: rest)) (m : Module V) (us : List (Use V))
    (h : (Module.init mesh 0 zero spaces).run (first ++ .advance :: rest) = some (m, us)) :
    m.advance.2.jacobian = (List.range spaces.length).map fun i => current zero i first := by
  refine (C68_previous mesh 0 zero spaces _ m us h).1 first ⟨rest ++ [.advance], by simp, ?_, fun a b hab => ?_⟩
  · exact cycle_same 0 first (fun o ho => hr o (List.mem_append_left _ ho)) hf
  · have hsub : NoReset (first ++ .advance :: a) := by
      intro o ho k
      have : o ∈ first ++ .advance :: (rest ++ [.advance]) := by
        rw [hab, show first ++ Op.advance :: (a ++ Op.advance :: b) = (first ++ Op.advance :: a) ++ Op.advance :: b by simp]
        exact List.mem_append_left _ ho
      rw [show first ++ Op.advance :: (rest ++ [.advance]) = (first ++ Op.advance :: rest) ++ [.advance] by simp] at this
      rcases List.mem_append.1 this with h | h
      · exact hr o h k
      · rw [List.mem_singleton.1 h]; exact fun h => by cases h
    have := (cycle_mono 0 _ hsub).2 (by simp)
    omega

/-- **The Jacobian of the step before**, exactly when: in an analysis from cycle 0 without resets the warm start uses the parameters of the
step before if and only if these are the parameters of the first step. -/
theorem C68_previous_partial (mesh : ℕ) (zero : V) (spaces : List (ℕ × ℕ)) (first rest : List (Op V)) (hf : .advance ∉ first)
    (hr : NoReset (first ++ .advance :: rest)) (m : Module V) (us : List (Use V))
    (h : (Module.init mesh 0 zero spaces).run (first ++ .advance :: rest) = some (m, us)) (vals : List V)
    (hb : Before zero spaces.length (first ++ .advance :: rest) vals) :
    m.advance.2.jacobian = vals ↔ ∀ i < spaces.length, vals[i]? = some (current zero i first) := by
  rw [jacobian_first mesh zero spaces first rest hf hr m us h]
  obtain ⟨pre, post, -, -, hv⟩ := hb
  constructor
  · rintro rfl i hi
    simp [hi]
  · intro hi
    apply List.ext_getElem?
    intro k
    by_cases hk : k < spaces.length
    · rw [hi k hk]; simp [hk]
    · rw [hv]; simp [hk]

/-- Changing a parameter between two steps: the third step's warm start still uses the value of the first, although the step before used the
new one. -/
theorem C68_previous_wrong (mesh sp sz : ℕ) (zero p q : V) (hpq : p ≠ q) :
    ∃ m us, (Module.init mesh 0 zero [(sp, sz)]).run [.set 0 ⟨mesh, sp, sz, p⟩, .advance, .set 0 ⟨mesh, sp, sz, q⟩, .advance] = some (m, us) ∧
      Before zero 1 [.set 0 ⟨mesh, sp, sz, p⟩, .advance, .set 0 ⟨mesh, sp, sz, q⟩, .advance] [q] ∧
      m.advance.2.residual = [q] ∧ m.advance.2.jacobian = [p] ∧ m.advance.2.jacobian ≠ [q] := by
  refine ⟨_, _, by
    simp [Module.run, Module.step, Module.setParameter, Module.init, Module.advance]
    exact ⟨rfl, rfl⟩, ⟨[.set 0 ⟨mesh, sp, sz, p⟩, .advance, .set 0 ⟨mesh, sp, sz, q⟩], [], rfl, by simp, rfl⟩, ?_, ?_, ?_⟩
  · simp [Module.advance]
  · simp [Module.advance]
  · simp [Module.advance, hpq]

/-- After a restart at a later cycle the Jacobian of the warm start is that of zero parameters, for as long as the module is not reset. -/
theorem C68_restart_wrong (mesh : ℕ) (c : ℤ) (hc : 0 < c) (zero : V) (spaces : List (ℕ × ℕ)) (ops : List (Op V)) (hr : NoReset ops)
    (m : Module V) (us : List (Use V)) (h : (Module.init mesh c zero spaces).run ops = some (m, us)) :
    m.advance.2.jacobian = (List.range spaces.length).map fun _ => zero := by
  refine (C68_previous mesh c zero spaces ops m us h).2 ?_
  rintro pre ⟨post, he, hz, -⟩
  have hsub : NoReset pre := by
    intro o ho k
    have : o ∈ ops ++ [.advance] := by rw [he]; exact List.mem_append_left _ ho
    rcases List.mem_append.1 this with h | h
    · exact hr o h k
    · rw [List.mem_singleton.1 h]; exact fun h => by cases h
  have := (cycle_mono c pre hsub).1
  omega

open Serac.Elim in
/-- **The guess of the warm start** for a linear problem `r p u = K p u - f` and an exact linear solver: the constrained dofs have their new
values and the residual left on the free dofs is the difference of the two stiffnesses on the increment. -/
theorem C68_guess {n : ℕ} (K : List V → Mat n) (f : Vec n) (use : Use V) (dofs : List (Fin n)) (hnd : dofs.Nodup) (g u : Vec n)
    (hg : ∀ i, i ∉ dofs → g i = 0) (solve : Mat n → Vec n → Vec n)
    (hsolve : ∀ b, ∀ i, mulVec (elim (K use.jacobian) dofs) (solve (elim (K use.jacobian) dofs) b) i = b i) :
    let u' := Parameters.warmStart (fun p x i => mulVec (K p) x i - f i) (fun p _ => K p) use dofs g u solve
    (∀ i ∈ dofs, u' i = g i) ∧ ∀ i, i ∉ dofs →
      mulVec (K use.residual) u' i - f i = ∑ j, (K use.residual i j - K use.jacobian i j) * (u' j - u j) := by
  intro u'
  obtain ⟨h1, -, h3⟩ := C26.C26_warm_start dofs hnd g u hg true (K use.jacobian)
    (fun i => mulVec (K use.residual) u i - f i) solve hsolve
  refine ⟨h1, fun i hi => ?_⟩
  have h4 : (∑ j, K use.jacobian i j * (u' j - u j)) = -(mulVec (K use.residual) u i - f i) := h3 rfl i hi
  have e : (∑ j, (K use.residual i j - K use.jacobian i j) * (u' j - u j)) =
      mulVec (K use.residual) u' i - mulVec (K use.residual) u i - ∑ j, K use.jacobian i j * (u' j - u j) := by
    simp only [mulVec, ← Finset.sum_sub_distrib]
    refine Finset.sum_congr rfl fun j _ => ?_
    ring
  rw [e, h4]
  ring

open Serac.Elim in
/-- If the parameters never change after the first step, the warm start alone solves the linear problem of every step. -/
theorem C68_guess_partial {n : ℕ} (mesh : ℕ) (zero : V) (spaces : List (ℕ × ℕ)) (first rest : List (Op V)) (hf : .advance ∉ first)
    (hr : NoReset (first ++ .advance :: rest)) (hconst : ∀ i < spaces.length, current zero i (first ++ .advance :: rest) = current zero i first)
    (m : Module V) (us : List (Use V)) (h : (Module.init mesh 0 zero spaces).run (first ++ .advance :: rest) = some (m, us))
    (K : List V → Mat n) (f : Vec n) (dofs : List (Fin n)) (hnd : dofs.Nodup) (g u : Vec n) (hg : ∀ i, i ∉ dofs → g i = 0)
    (solve : Mat n → Vec n → Vec n)
    (hsolve : ∀ p b i, mulVec (elim (K p) dofs) (solve (elim (K p) dofs) b) i = b i) :
    let u' := Parameters.warmStart (fun p x i => mulVec (K p) x i - f i) (fun p _ => K p) m.advance.2 dofs g u solve
    (∀ i ∈ dofs, u' i = g i) ∧ ∀ i, i ∉ dofs → mulVec (K m.advance.2.residual) u' i = f i := by
  intro u'
  obtain ⟨h1, h2⟩ := C68_guess K f m.advance.2 dofs hnd g u hg solve (hsolve _)
  refine ⟨h1, fun i hi => ?_⟩
  have h3 := h2 i hi
  have e : m.advance.2.jacobian = m.advance.2.residual := by
    rw [jacobian_first mesh zero spaces first rest hf hr m us h, C68_current mesh 0 zero spaces _ m us h]
    refine List.map_congr_left fun k hk => ?_
    rw [hconst k (List.mem_range.1 hk)]
  rw [e] at h3
  simp only [sub_self, zero_mul, Finset.sum_const_zero] at h3
  linarith

open Serac.Elim in
/-- One spring of stiffness `p`, changed from `p₀` to `p₁` after the first step.  At the third step only the load changes, from `f₀` to `f₁`;
the spring is in equilibrium with `f₀`.  The guess is off by the ratio of the stiffnesses, where the Jacobian of the step before would have
given the solution. -/
theorem C68_guess_wrong (mesh sp sz : ℕ) (zero p₀ p₁ f₀ f₁ : ℝ) (hp₀ : p₀ ≠ 0) (hp₁ : p₁ ≠ 0) (hne : p₀ ≠ p₁) (hf : f₀ ≠ f₁) :
    ∃ m us, (Module.init mesh 0 zero [(sp, sz)]).run [.set 0 ⟨mesh, sp, sz, p₀⟩, .advance, .set 0 ⟨mesh, sp, sz, p₁⟩, .advance] = some (m, us) ∧
      let K : List ℝ → Mat 1 := fun p _ _ => p.headD 0
      let solve : Mat 1 → Vec 1 → Vec 1 := fun A b i => b i / A i i
      let guess := fun use => Parameters.warmStart (fun p x i => mulVec (K p) x i - f₁) (fun p _ => K p) use [] (fun _ => 0) (fun _ => f₀ / p₁) solve
      guess m.advance.2 0 = f₀ / p₁ + (f₁ - f₀) / p₀ ∧ guess m.advance.2 0 ≠ f₁ / p₁ ∧ guess ⟨[p₁], [p₁]⟩ 0 = f₁ / p₁ := by
  obtain ⟨m, us, hrun, -, h2, h3, -⟩ := C68_previous_wrong mesh sp sz zero p₀ p₁ hne
  refine ⟨m, us, hrun, ?_⟩
  intro K solve guess
  have hu : m.advance.2 = ⟨[p₁], [p₀]⟩ := by
    cases hm : m.advance.2 with
    | mk a b => rw [hm] at h2 h3; simp only at h2 h3; rw [h2, h3]
  have key : ∀ a : ℝ, guess ⟨[p₁], [a]⟩ 0 = f₀ / p₁ + (f₁ - f₀) / a := by
    intro a
    simp only [guess, Parameters.warmStart, Elim.warmStart, solve, K, mulVec, elim, eliminateBC, elimRest]
    simp
    rw [mul_div_cancel₀ _ hp₁]
  rw [hu, key, key]
  refine ⟨rfl, ?_, ?_⟩
  · intro h
    have h1 : (f₁ - f₀) / p₀ = (f₁ - f₀) / p₁ := by
      rw [sub_div f₁ f₀ p₁, ← h]; ring
    have hf' : f₁ - f₀ ≠ 0 := sub_ne_zero.2 hf.symm
    rw [div_eq_div_iff hp₀ hp₁] at h1
    exact hne (mul_left_cancel₀ hf' h1).symm
  · rw [← add_div]; congr 1; ring

/-! ## Examples -/

/-- Two parameters, one of them set twice: a run that is accepted, its values, its first step. -/
example : ∃ m us, (Module.init 1 0 (0 : ℝ) [(7, 4), (8, 9)]).run
    [.set 0 ⟨1, 7, 4, 2⟩, .set 1 ⟨1, 8, 9, 3⟩, .advance, .set 0 ⟨1, 7, 4, 5⟩] = some (m, us) ∧ m.advance.2.residual = [5, 3] ∧
      m.advance.2.jacobian = [2, 3] := by
  refine ⟨_, _, by
    simp [Module.run, Module.step, Module.setParameter, Module.init, Module.advance]
    exact ⟨rfl, rfl⟩, ?_, ?_⟩
  · simp [Module.advance]
  · simp [Module.advance]

example : (Module.init 1 0 (0 : ℝ) [(7, 4)]).run [.set 1 ⟨1, 7, 4, 2⟩] = none := by
  simp [Module.run, Module.step, Module.setParameter, Module.init]

example : NoReset ([.set 0 ⟨1, 7, 4, 2⟩] ++ .advance :: [.advance] : List (Op ℝ)) ∧
    current 0 0 ([.set 0 ⟨1, 7, 4, 2⟩] ++ .advance :: [.advance] : List (Op ℝ)) = 2 := by
  constructor
  · intro o ho k
    simp only [List.singleton_append, List.mem_cons, List.not_mem_nil, or_false] at ho
    rcases ho with rfl | rfl | rfl <;> simp
  · rfl

end Serac.C68
