import Verif.Model.Restart
import Mathlib.Tactic.SplitIfs
import Mathlib.Tactic.Common
import Mathlib.Data.Int.Notation
import Mathlib.Data.Option.Basic
/-!
# C28: restart restores the saved fields

Spec.  `v` is what the fields held when `outputStateToDisk` was called.  After a restart from that file the rebuilt module's fields should
be `v` again.

What the state manager does is right (`C28_manager`), and so are parameters and their sensitivities and the time
(`C28_parameters_partial`).  Violations found: the module constructors set every primal field, the reactions and the shape displacement to
zero after reading them (`C28_fields_wrong`, `C28_solid_wrong`, `C28_heat_wrong`, `C28_shape_wrong`), and with disk checkpoints solid
mechanics then overwrites the very file it was restarted from (`C28_overwrite_wrong`).
-/

namespace Serac.C28
open Serac.Restart

variable {Nm T G Tm : Type} [DecidableEq Nm]

/-- What mfem is assumed to do: going to a grid function and back returns the true dofs. -/
structure Faithful (m : Maps T G) : Prop where
  state : ∀ v, m.R (m.P v) = v
  dual : ∀ v, m.R (m.RT v) = v

/-! ## Helper lemmas -/

/-- Nothing but `save` touches the files. -/
theorem step_files (m : Maps T G) (o : Op Nm T Tm) (s s' : Store Nm G Tm) (h : step m o s = some s') (c : ℤ)
    (hc : ∀ t c', o = Op.save t c' → c' ≠ c) : s'.files c = s.files c := by
  cases o with
  | newState n =>
    simp only [step, storeState] at h
    split_ifs at h
    · cases h
    · cases hf : s.fields n with
      | none => rw [hf] at h; cases h
      | some g => rw [hf] at h; cases h; rfl
    · cases h
    · cases h; rfl
  | newDual n =>
    simp only [step, storeDual] at h
    split_ifs at h
    · cases h
    · cases hf : s.fields n with
      | none => rw [hf] at h; cases h
      | some g => rw [hf] at h; cases h; rfl
    · cases h
    · cases h; rfl
  | updateState n v =>
    simp only [step, updateState] at h
    split_ifs at h; cases h; rfl
  | updateDual n v =>
    simp only [step, updateDual] at h
    split_ifs at h; cases h; rfl
  | save t c' =>
    cases h
    show Function.update s.files c' _ c = _
    rw [Function.update_of_ne (fun h => hc t c' rfl h.symm)]

theorem run_files (m : Maps T G) (os : List (Op Nm T Tm)) (s s' : Store Nm G Tm) (h : run m os s = some s') (c : ℤ)
    (hc : ∀ o ∈ os, ∀ t c', o = Op.save t c' → c' ≠ c) : s'.files c = s.files c := by
  induction os generalizing s with
  | nil => cases h; rfl
  | cons o os ih =>
    rw [run, Option.bind_eq_some_iff] at h
    obtain ⟨s1, h1, h2⟩ := h
    rw [ih s1 h2 (fun o' ho' => hc o' (List.mem_cons_of_mem _ ho')), step_files m o s s1 h1 c (hc o List.mem_cons_self)]

/-- Fields after the update calls: written entries hold the live value, the rest is untouched. -/
theorem updateAll_fields (m : Maps T G) (live : Nm → T) (es : List (Entry Nm)) (s s' : Store Nm G Tm) (hnd : (es.map Entry.name).Nodup)
    (h : updateAll m live es s = some s') :
    (∀ e ∈ es, e.written = true → s'.fields e.name = some (if e.isDual then m.RT (live e.name) else m.P (live e.name))) ∧
    (∀ n, n ∉ es.map Entry.name → s'.fields n = s.fields n) ∧
    (∀ n, s.fields n ≠ none → s'.fields n ≠ none) ∧
    s'.files = s.files ∧ s'.states = s.states ∧ s'.duals = s.duals := by
  induction es generalizing s with
  | nil => cases h; exact ⟨fun e he => absurd he (List.not_mem_nil), fun _ _ => rfl, fun _ h => h, rfl, rfl, rfl⟩
  | cons e es ih =>
    rw [List.map_cons, List.nodup_cons] at hnd
    simp only [updateAll, Option.bind_eq_bind, Option.bind_eq_some_iff] at h
    obtain ⟨s1, h1, h2⟩ := h
    obtain ⟨i1, i2, i3, i4, i5, i6⟩ := ih s1 hnd.2 h2
    have key : (e.written = true → s1.fields e.name = some (if e.isDual then m.RT (live e.name) else m.P (live e.name))) ∧
        (∀ n, n ≠ e.name → s1.fields n = s.fields n) ∧ (∀ n, s.fields n ≠ none → s1.fields n ≠ none) ∧
        s1.files = s.files ∧ s1.states = s.states ∧ s1.duals = s.duals := by
      by_cases hw : e.written = true
      · rw [if_pos hw] at h1
        by_cases hd : e.isDual = true
        · rw [if_pos hd, updateDual] at h1
          split_ifs at h1
          cases h1
          refine ⟨fun _ => ?_, fun n hn => Function.update_of_ne hn _ _, fun n hn => ?_, rfl, rfl, rfl⟩
          · rw [if_pos hd]; exact Function.update_self _ _ _
          · show Function.update s.fields e.name _ n ≠ none
            by_cases hne : n = e.name
            · subst hne; rw [Function.update_self]; exact fun h => by cases h
            · rw [Function.update_of_ne hne]; exact hn
        · rw [if_neg hd, updateState] at h1
          split_ifs at h1
          cases h1
          refine ⟨fun _ => ?_, fun n hn => Function.update_of_ne hn _ _, fun n hn => ?_, rfl, rfl, rfl⟩
          · rw [if_neg hd]; exact Function.update_self _ _ _
          · show Function.update s.fields e.name _ n ≠ none
            by_cases hne : n = e.name
            · subst hne; rw [Function.update_self]; exact fun h => by cases h
            · rw [Function.update_of_ne hne]; exact hn
      · rw [if_neg hw] at h1
        cases h1
        exact ⟨fun h => absurd h hw, fun _ _ => rfl, fun _ h => h, rfl, rfl, rfl⟩
    obtain ⟨k1, k2, k3, k4, k5, k6⟩ := key
    refine ⟨fun e' he' hw => ?_, fun n hn => ?_, fun n hn => i3 n (k3 n hn), i4.trans k4, i5.trans k5, i6.trans k6⟩
    · rcases List.mem_cons.1 he' with rfl | he'
      · rw [i2 _ hnd.1]; exact k1 hw
      · exact i1 e' he' hw
    · rw [List.map_cons, List.mem_cons, not_or] at hn
      rw [i2 n hn.2, k2 n hn.1]

/-- Rebuilding during a restart: each field gets the value in the data collection, or zero. -/
theorem build_restart (m : Maps T G) (zero : T) (es : List (Entry Nm)) (s : Store Nm G Tm) (hr : s.restart = true)
    (hnd : (es.map Entry.name).Nodup) (hs : ∀ e ∈ es, s.states e.name = false ∧ s.duals e.name = false)
    (hf : ∀ e ∈ es, s.fields e.name ≠ none) :
    ∃ live s', build m zero es s = some (live, s') ∧ s'.files = s.files ∧ s'.fields = s.fields ∧
      (∀ n, s.states n = true → s'.states n = true) ∧ (∀ n, s.duals n = true → s'.duals n = true) ∧
      (∀ e ∈ es, (e.isDual = true → s'.duals e.name = true) ∧ (e.isDual = false → s'.states e.name = true)) ∧
      ∀ e ∈ es, ∀ g, s.fields e.name = some g → live e.name = if e.zeroed then zero else m.R g := by
  induction es generalizing s with
  | nil =>
    exact ⟨_, s, rfl, rfl, rfl, fun _ h => h, fun _ h => h, fun e he => absurd he List.not_mem_nil, fun e he => absurd he List.not_mem_nil⟩
  | cons e es ih =>
    rw [List.map_cons, List.nodup_cons] at hnd
    obtain ⟨hs1, hs2⟩ := hs e List.mem_cons_self
    obtain ⟨g, hg⟩ := Option.ne_none_iff_exists'.1 (hf e List.mem_cons_self)
    have hne : ∀ e' ∈ es, e'.name ≠ e.name := fun e' he' h => hnd.1 (h ▸ List.mem_map_of_mem he')
    have key : ∃ s1, (if e.isDual then storeDual m e.name s else storeState m e.name s) = some (m.R g, s1) ∧ s1.restart = true ∧
        s1.fields = s.fields ∧ s1.files = s.files ∧ (∀ n, n ≠ e.name → s1.states n = s.states n ∧ s1.duals n = s.duals n) ∧
        (∀ n, s.states n = true → s1.states n = true) ∧ (∀ n, s.duals n = true → s1.duals n = true) ∧
        (e.isDual = true → s1.duals e.name = true) ∧ (e.isDual = false → s1.states e.name = true) := by
      by_cases hd : e.isDual = true
      · refine ⟨{ s with duals := Function.update s.duals e.name true }, ?_, hr, rfl, rfl, ?_, fun _ h => h, ?_, ?_, ?_⟩
        · rw [if_pos hd, storeDual, if_neg (by rw [hs2]; decide), if_pos hr, hg]; rfl
        · intro n hn; exact ⟨rfl, Function.update_of_ne hn _ _⟩
        · intro n hn
          show Function.update s.duals e.name true n = true
          by_cases h : n = e.name
          · subst h; exact Function.update_self _ _ _
          · rw [Function.update_of_ne h]; exact hn
        · intro _; exact Function.update_self _ _ _
        · intro h; rw [hd] at h; cases h
      · refine ⟨{ s with states := Function.update s.states e.name true }, ?_, hr, rfl, rfl, ?_, ?_, fun _ h => h, ?_, ?_⟩
        · rw [if_neg hd, storeState, if_neg (by rw [hs1]; decide), if_pos hr, hg]; rfl
        · intro n hn; exact ⟨Function.update_of_ne hn _ _, rfl⟩
        · intro n hn
          show Function.update s.states e.name true n = true
          by_cases h : n = e.name
          · subst h; exact Function.update_self _ _ _
          · rw [Function.update_of_ne h]; exact hn
        · intro h; exact absurd h hd
        · intro _; exact Function.update_self _ _ _
    obtain ⟨s1, k0, k1, k2, k3, k4, k5, k6, k7, k8⟩ := key
    obtain ⟨live, s', j1, j2, j3, j4, j5, j6, j7⟩ := ih s1 k1 hnd.2
      (fun e' he' => by
        rw [(k4 _ (hne e' he')).1, (k4 _ (hne e' he')).2]; exact hs e' (List.mem_cons_of_mem _ he'))
      (fun e' he' => by rw [k2]; exact hf e' (List.mem_cons_of_mem _ he'))
    refine ⟨Function.update live e.name (if e.zeroed then zero else m.R g), s', ?_, j2.trans k3, j3.trans k2, fun n h => j4 n (k5 n h),
      fun n h => j5 n (k6 n h), ?_, ?_⟩
    · rw [build, k0]
      dsimp only [Option.bind_eq_bind, Option.bind_some]
      rw [j1]; rfl
    · intro e' he'
      rcases List.mem_cons.1 he' with rfl | he'
      · exact ⟨fun h => j5 _ (k7 h), fun h => j4 _ (k8 h)⟩
      · exact j6 e' he'
    · intro e' he' g' hg'
      rcases List.mem_cons.1 he' with rfl | he'
      · rw [hg] at hg'; cases hg'; exact Function.update_self _ _ _
      · rw [Function.update_of_ne (hne e' he')]
        exact j7 e' he' g' (by rw [k2]; exact hg')

/-- Nothing but an update of `n` changes the grid function of `n` once it exists. -/
theorem step_fields (m : Maps T G) (o : Op Nm T Tm) (s s' : Store Nm G Tm) (h : step m o s = some s') (n : Nm) (hn : s.fields n ≠ none)
    (hu : ∀ v, o ≠ Op.updateState n v ∧ o ≠ Op.updateDual n v) : s'.fields n = s.fields n := by
  cases o with
  | newState n' =>
    simp only [step, storeState] at h
    split_ifs at h with h1 h2 h3
    · cases h
    · cases hf : s.fields n' with
      | none => rw [hf] at h; cases h
      | some g => rw [hf] at h; cases h; rfl
    · cases h
    · cases h
      have : n ≠ n' := by
        rintro rfl
        exact h3 (Option.isSome_iff_ne_none.2 hn)
      exact Function.update_of_ne this _ _
  | newDual n' =>
    simp only [step, storeDual] at h
    split_ifs at h with h1 h2 h3
    · cases h
    · cases hf : s.fields n' with
      | none => rw [hf] at h; cases h
      | some g => rw [hf] at h; cases h; rfl
    · cases h
    · cases h
      have : n ≠ n' := by
        rintro rfl
        exact h3 (Option.isSome_iff_ne_none.2 hn)
      exact Function.update_of_ne this _ _
  | updateState n' v =>
    simp only [step, updateState] at h
    split_ifs at h; cases h
    have : n ≠ n' := by rintro rfl; exact (hu v).1 rfl
    exact Function.update_of_ne this _ _
  | updateDual n' v =>
    simp only [step, updateDual] at h
    split_ifs at h; cases h
    have : n ≠ n' := by rintro rfl; exact (hu v).2 rfl
    exact Function.update_of_ne this _ _
  | save t c' => cases h; rfl

theorem run_fields (m : Maps T G) (os : List (Op Nm T Tm)) (s s' : Store Nm G Tm) (h : run m os s = some s') (n : Nm)
    (hn : s.fields n ≠ none) (hu : ∀ v, Op.updateState n v ∉ os ∧ Op.updateDual n v ∉ os) : s'.fields n = s.fields n := by
  induction os generalizing s with
  | nil => cases h; rfl
  | cons o os ih =>
    rw [run, Option.bind_eq_some_iff] at h
    obtain ⟨s1, h1, h2⟩ := h
    have h3 := step_fields m o s s1 h1 n hn (fun v => ⟨fun he => (hu v).1 (he ▸ List.mem_cons_self), fun he => (hu v).2 (he ▸ List.mem_cons_self)⟩)
    rw [ih s1 h2 (by rw [h3]; exact hn) (fun v => ⟨fun hm => (hu v).1 (List.mem_cons_of_mem _ hm), fun hm => (hu v).2 (List.mem_cons_of_mem _ hm)⟩),
      h3]

theorem storeState_restart (m : Maps T G) (n : Nm) (s : Store Nm G Tm) (hr : s.restart = true) (hs : s.states n = false) {g : G}
    (hg : s.fields n = some g) : storeState m n s = some (m.R g, { s with states := Function.update s.states n true }) := by
  rw [storeState, if_neg (by rw [hs]; decide), if_pos hr, hg]; rfl

/-! ## The state manager -/

/-- State manager level: the last value given to `updateState n` before a save at cycle `c` is what `newState n` returns after loading cycle
`c`, whatever other fields were created or updated before the save and whatever was done or saved (at other cycles) after it. -/
theorem C28_manager (m : Maps T G) (hm : Faithful m) (zero : T) (shape n : Nm) (hne : n ≠ shape) (v : T) (s s1 s2 s3 : Store Nm G Tm)
    (h1 : updateState m n v s = some s1) (hsh : s.fields shape ≠ none)
    (os : List (Op Nm T Tm)) (h2 : run m os s1 = some s2) (hu : ∀ w, Op.updateState n w ∉ os ∧ Op.updateDual n w ∉ os) (t : Tm) (c : ℤ)
    (os' : List (Op Nm T Tm)) (h3 : run m os' (save t c s2) = some s3) (hc : ∀ t' c', Op.save t' c' ∈ os' → c' ≠ c) :
    ∃ s4 s5, load m zero shape c (clear s3) = some (t, zero, s4) ∧ storeState m n s4 = some (v, s5) := by
  have hf1 : s1.fields n = some (m.P v) ∧ s1.fields shape ≠ none := by
    rw [updateState] at h1
    split_ifs at h1
    cases h1
    refine ⟨Function.update_self _ _ _, ?_⟩
    show Function.update s.fields n _ shape ≠ none
    rw [Function.update_of_ne hne.symm]; exact hsh
  have hf2 : s2.fields n = some (m.P v) := by rw [run_fields m os s1 s2 h2 n (by rw [hf1.1]; exact fun h => by cases h) hu, hf1.1]
  have hsh2 : s2.fields shape ≠ none := by
    clear hf2 h3 hu
    have hs := hf1.2
    clear hf1 h1
    induction os generalizing s1 with
    | nil => cases h2; exact hs
    | cons o os ih =>
      rw [run, Option.bind_eq_some_iff] at h2
      obtain ⟨sa, ha, hb⟩ := h2
      refine ih sa hb ?_
      by_cases hx : ∀ v, o ≠ Op.updateState shape v ∧ o ≠ Op.updateDual shape v
      · rw [step_fields m o s1 sa ha shape hs hx]; exact hs
      · rw [Classical.not_forall] at hx
        obtain ⟨w, hw⟩ := hx
        rw [Classical.not_and_iff_not_or_not, Classical.not_not, Classical.not_not] at hw
        rcases hw with rfl | rfl
        · simp only [step, updateState] at ha
          split_ifs at ha; cases ha
          show Function.update s1.fields shape _ shape ≠ none
          rw [Function.update_self]; exact fun h => by cases h
        · simp only [step, updateDual] at ha
          split_ifs at ha; cases ha
          show Function.update s1.fields shape _ shape ≠ none
          rw [Function.update_self]; exact fun h => by cases h
  have hfile : s3.files c = some (t, s2.fields) := by
    rw [run_files m os' _ s3 h3 c (fun o ho t' c' he => hc t' c' (he ▸ ho))]
    exact Function.update_self _ _ _
  obtain ⟨gs, hgs⟩ := Option.ne_none_iff_exists'.1 hsh2
  have hload : load m zero shape c (clear s3) = some (t, zero, { (clear s3) with
      restart := true, fields := s2.fields, states := Function.update (fun _ => false) shape true }) := by
    unfold load
    show (s3.files c).bind _ = _
    rw [hfile]
    simp only [Option.bind_some, storeState, clear, hgs]
    rfl
  have hst := storeState_restart m n { (clear s3) with
      restart := true, fields := s2.fields, states := Function.update (fun _ => false) shape true } rfl
    (by
      show Function.update (fun _ => false) shape true n = false
      rw [Function.update_of_ne hne]) hf2
  rw [hm.state v] at hst
  exact ⟨_, _, hload, hst⟩

/-! ## The modules -/

/-- A restart reproduces the time and every written field that the constructor leaves alone, and leaves zero in all others. -/
theorem rebuild (m : Maps T G) (hm : Faithful m) (zero : T) (shape : Nm) (es : List (Entry Nm)) (hnd : (es.map Entry.name).Nodup)
    (hshape : shape ∉ es.map Entry.name) (v : Nm → T) (t : Tm) (c : ℤ) (s s1 s2 : Store Nm G Tm) (hall : ∀ e ∈ es, s.fields e.name ≠ none)
    (h1 : output m shape es v t c s = some s1) (os : List (Op Nm T Tm)) (h2 : run m os s1 = some s2)
    (hc : ∀ t' c', Op.save t' c' ∈ os → c' ≠ c) (writes : Bool) :
    ∃ live s3, restart m zero shape es writes c s2 = some (t, live, s3) ∧ live shape = zero ∧
      (∀ e ∈ es, e.zeroed = true → live e.name = zero) ∧
      (∀ e ∈ es, e.zeroed = false → e.written = true → live e.name = v e.name) ∧
      (writes = true → ∃ f, s3.files c = some (t, f) ∧
        (∀ e ∈ es, e.written = true → f e.name = some (if e.isDual then m.RT (live e.name) else m.P (live e.name))) ∧
        f shape = some (m.P zero)) := by
  unfold output at h1
  simp only [Option.bind_eq_bind, Option.bind_eq_some_iff] at h1
  obtain ⟨sa, ha, sb, hb, hsave⟩ := h1
  cases hsave
  obtain ⟨a1, a2, a3, -, -, -⟩ := updateAll_fields m v es s sa hnd ha
  have hb' : sb.fields = Function.update sa.fields shape (some (m.P (v shape))) := by
    rw [updateState] at hb
    split_ifs at hb; cases hb; rfl
  have hfile : s2.files c = some (t, sb.fields) := by
    rw [run_files m os _ s2 h2 c (fun o ho t' c' he => hc t' c' (he ▸ ho))]
    exact Function.update_self _ _ _
  have hsb : ∀ e ∈ es, sb.fields e.name = sa.fields e.name := by
    intro e he
    rw [hb', Function.update_of_ne]
    rintro h; exact hshape (h ▸ List.mem_map_of_mem he)
  let sl : Store Nm G Tm := { (clear s2) with restart := true, fields := sb.fields, states := Function.update (fun _ => false) shape true }
  have hload : load m zero shape c (clear s2) = some (t, zero, sl) := by
    unfold load
    show (s2.files c).bind _ = _
    rw [hfile]
    simp only [Option.bind_some, storeState, clear, hb', Function.update_self]
    simp only [sl, clear, hb']
    rfl
  obtain ⟨live, s', b1, b2, b3, b4, b5, b6, b7⟩ := build_restart m zero es sl rfl hnd
    (fun e he => ⟨by
        show Function.update (fun _ => false) shape true e.name = false
        rw [Function.update_of_ne]; rintro h; exact hshape (h ▸ List.mem_map_of_mem he), rfl⟩)
    (fun e he => by
      show sb.fields e.name ≠ none
      rw [hsb e he]; exact a3 _ (hall e he))
  have hlive : ∀ e ∈ es, Function.update live shape zero e.name = live e.name := by
    intro e he
    rw [Function.update_of_ne]; rintro h; exact hshape (h ▸ List.mem_map_of_mem he)
  have hvals : (∀ e ∈ es, e.zeroed = true → live e.name = zero) ∧
      (∀ e ∈ es, e.zeroed = false → e.written = true → live e.name = v e.name) := by
    constructor
    · intro e he hz
      obtain ⟨g, hg⟩ := Option.ne_none_iff_exists'.1 (show sl.fields e.name ≠ none by
        show sb.fields e.name ≠ none
        rw [hsb e he]; exact a3 _ (hall e he))
      rw [b7 e he g hg, if_pos hz]
    · intro e he hz hw
      have hg : sl.fields e.name = some (if e.isDual then m.RT (v e.name) else m.P (v e.name)) := by
        show sb.fields e.name = _
        rw [hsb e he]; exact a1 e he hw
      rw [b7 e he _ hg, if_neg (by rw [hz]; decide)]
      split_ifs
      · exact hm.dual _
      · exact hm.state _
  cases writes with
  | false =>
    refine ⟨Function.update live shape zero, s', ?_, Function.update_self _ _ _, ?_, ?_, fun h => by cases h⟩
    · unfold restart
      rw [hload]
      simp only [Option.bind_eq_bind, Option.bind_some]
      rw [b1]; rfl
    · intro e he hz; rw [hlive e he]; exact hvals.1 e he hz
    · intro e he hz hw; rw [hlive e he]; exact hvals.2 e he hz hw
  | true =>
    have hup : ∀ (l : Nm → T) (es' : List (Entry Nm)) (st : Store Nm G Tm),
        (∀ e ∈ es', (e.isDual = true → st.duals e.name = true) ∧ (e.isDual = false → st.states e.name = true)) →
        ∃ st', updateAll m l es' st = some st' := by
      intro l es'
      induction es' with
      | nil => intro st _; exact ⟨st, rfl⟩
      | cons e es' ih =>
        intro st hst
        obtain ⟨q1, q2⟩ := hst e List.mem_cons_self
        have : ∃ st1, (if e.written then (if e.isDual then updateDual m e.name (l e.name) st else updateState m e.name (l e.name) st)
            else some st) = some st1 ∧ st1.states = st.states ∧ st1.duals = st.duals := by
          split_ifs with hw hd
          · rw [updateDual, if_pos (q1 hd)]; exact ⟨_, rfl, rfl, rfl⟩
          · rw [updateState, if_pos (q2 (by simpa using hd))]; exact ⟨_, rfl, rfl, rfl⟩
          · exact ⟨_, rfl, rfl, rfl⟩
        obtain ⟨st1, r1, r2, r3⟩ := this
        obtain ⟨st', r4⟩ := ih st1 (fun e' he' => by rw [r2, r3]; exact hst e' (List.mem_cons_of_mem _ he'))
        refine ⟨st', ?_⟩
        rw [updateAll, r1]; exact r4
    obtain ⟨st', hst'⟩ := hup (Function.update live shape zero) es s' b6
    obtain ⟨c1, -, -, c4, c5, -⟩ := updateAll_fields m (Function.update live shape zero) es s' st' hnd hst'
    have hss : st'.states shape = true := by
      rw [c5]; exact b4 shape (show Function.update (fun _ => false) shape true shape = true from Function.update_self _ _ _)
    have hres : restart m zero shape es true c s2 = some (t, Function.update live shape zero,
        save t c { st' with fields := Function.update st'.fields shape (some (m.P (Function.update live shape zero shape))) }) := by
      unfold restart
      rw [hload]
      simp only [Option.bind_eq_bind, Option.bind_some]
      rw [b1]
      simp only [Option.bind_some, if_true]
      rw [output, hst']
      simp only [Option.bind_eq_bind, Option.bind_some]
      rw [updateState, if_pos hss]
      rfl
    refine ⟨_, _, hres, Function.update_self _ _ _, ?_, ?_, fun _ => ⟨_, Function.update_self _ _ _, ?_, ?_⟩⟩
    · intro e he hz; rw [hlive e he]; exact hvals.1 e he hz
    · intro e he hz hw; rw [hlive e he]; exact hvals.2 e he hz hw
    · intro e he hw
      show Function.update st'.fields shape _ e.name = _
      rw [Function.update_of_ne]
      · exact c1 e he hw
      · rintro h; exact hshape (h ▸ List.mem_map_of_mem he)
    · show Function.update st'.fields shape _ shape = _
      rw [Function.update_self, Function.update_self]

/-- What a restart after `output` gives, spelled out.  `Saved` collects the circumstances: the module with fields `es` wrote its values `v`
at cycle `c`, and no later call saved at `c`. -/
structure Saved (m : Maps T G) (shape : Nm) (es : List (Entry Nm)) (v : Nm → T) (t : Tm) (c : ℤ) (s : Store Nm G Tm) : Prop where
  faithful : Faithful m
  nodup : (es.map Entry.name).Nodup
  shape_notMem : shape ∉ es.map Entry.name
  saved : ∃ s0 s1, (∀ e ∈ es, s0.fields e.name ≠ none) ∧ output m shape es v t c s0 = some s1 ∧
    ∃ os, run m os s1 = some s ∧ ∀ t' c', Op.save t' c' ∈ os → c' ≠ c

/-- Restart always succeeds with the saved time; parameters (and their sensitivities) come back exactly.

Missing for the full claim: the primal fields, reactions and shape displacement, which the constructors zero. -/
theorem C28_parameters_partial (m : Maps T G) (zero : T) (shape : Nm) (es : List (Entry Nm)) (v : Nm → T) (t : Tm) (c : ℤ)
    (s : Store Nm G Tm) (h : Saved m shape es v t c s) (writes : Bool) :
    ∃ live s', restart m zero shape es writes c s = some (t, live, s') ∧
      ∀ e ∈ es, e.zeroed = false → e.written = true → live e.name = v e.name := by
  obtain ⟨s0, s1, h0, h1, os, h2, h3⟩ := h.saved
  obtain ⟨live, s3, r1, -, -, r4, -⟩ := rebuild m h.faithful zero shape es h.nodup h.shape_notMem v t c s0 s1 s h0 h1 os h2 h3 writes
  exact ⟨live, s3, r1, r4⟩

/-- Every field the constructor zeroes comes back equal to the saved one exactly if the saved one was zero. -/
theorem C28_fields_wrong (m : Maps T G) (zero : T) (shape : Nm) (es : List (Entry Nm)) (v : Nm → T) (t : Tm) (c : ℤ)
    (s : Store Nm G Tm) (h : Saved m shape es v t c s) (writes : Bool) :
    ∃ live s', restart m zero shape es writes c s = some (t, live, s') ∧
      ∀ e ∈ es, e.zeroed = true → (live e.name = v e.name ↔ v e.name = zero) := by
  obtain ⟨s0, s1, h0, h1, os, h2, h3⟩ := h.saved
  obtain ⟨live, s3, r1, -, r3, -, -⟩ := rebuild m h.faithful zero shape es h.nodup h.shape_notMem v t c s0 s1 s h0 h1 os h2 h3 writes
  refine ⟨live, s3, r1, fun e he hz => ?_⟩
  rw [r3 e he hz]; exact eq_comm

/-- The shape displacement is lost in the same way. -/
theorem C28_shape_wrong (m : Maps T G) (zero : T) (shape : Nm) (es : List (Entry Nm)) (v : Nm → T) (t : Tm) (c : ℤ)
    (s : Store Nm G Tm) (h : Saved m shape es v t c s) (writes : Bool) :
    ∃ live s', restart m zero shape es writes c s = some (t, live, s') ∧ (live shape = v shape ↔ v shape = zero) := by
  obtain ⟨s0, s1, h0, h1, os, h2, h3⟩ := h.saved
  obtain ⟨live, s3, r1, r2, -, -, -⟩ := rebuild m h.faithful zero shape es h.nodup h.shape_notMem v t c s0 s1 s h0 h1 os h2 h3 writes
  exact ⟨live, s3, r1, by rw [r2]; exact eq_comm⟩

/-- Solid mechanics: a restart from any state with non-zero displacement does not continue from it. -/
theorem C28_solid_wrong (m : Maps T G) (zero : T) (shape : Nm) (k : SolidNames Nm) (quasistatic : Bool) (params : List (Nm × Nm))
    (v : Nm → T) (t : Tm) (c : ℤ) (s : Store Nm G Tm) (h : Saved m shape (solidEntries k quasistatic params) v t c s) (writes : Bool) :
    ∃ live s', restart m zero shape (solidEntries k quasistatic params) writes c s = some (t, live, s') ∧
      live k.displacement = zero ∧ live k.velocity = zero ∧ live k.acceleration = zero ∧ live k.reactions = zero ∧
      (∀ p ∈ params, live p.1 = v p.1 ∧ live p.2 = v p.2) := by
  obtain ⟨s0, s1, h0, h1, os, h2, h3⟩ := h.saved
  obtain ⟨live, s3, r1, -, r3, r4, -⟩ := rebuild m h.faithful zero shape _ h.nodup h.shape_notMem v t c s0 s1 s h0 h1 os h2 h3 writes
  refine ⟨live, s3, r1, r3 ⟨k.displacement, false, true, true⟩ ?_ rfl, r3 ⟨k.velocity, false, true, !quasistatic⟩ ?_ rfl,
    r3 ⟨k.acceleration, false, true, !quasistatic⟩ ?_ rfl, r3 ⟨k.reactions, true, true, true⟩ ?_ rfl, fun p hp => ⟨?_, ?_⟩⟩
  · simp [solidEntries]
  · simp [solidEntries]
  · simp [solidEntries]
  · simp [solidEntries]
  · refine r4 ⟨p.1, false, false, true⟩ ?_ rfl rfl
    refine List.mem_append_right _ (List.mem_flatMap.2 ⟨p, hp, ?_⟩)
    simp
  · refine r4 ⟨p.2, true, false, true⟩ ?_ rfl rfl
    refine List.mem_append_right _ (List.mem_flatMap.2 ⟨p, hp, ?_⟩)
    simp

/-- Heat transfer likewise. -/
theorem C28_heat_wrong (m : Maps T G) (zero : T) (shape : Nm) (k : HeatNames Nm) (quasistatic : Bool) (params : List (Nm × Nm))
    (v : Nm → T) (t : Tm) (c : ℤ) (s : Store Nm G Tm) (h : Saved m shape (heatEntries k quasistatic params) v t c s) :
    ∃ live s', restart m zero shape (heatEntries k quasistatic params) false c s = some (t, live, s') ∧
      live k.temperature = zero ∧ live k.rate = zero ∧ (∀ p ∈ params, live p.1 = v p.1 ∧ live p.2 = v p.2) := by
  obtain ⟨s0, s1, h0, h1, os, h2, h3⟩ := h.saved
  obtain ⟨live, s3, r1, -, r3, r4, -⟩ := rebuild m h.faithful zero shape _ h.nodup h.shape_notMem v t c s0 s1 s h0 h1 os h2 h3 false
  refine ⟨live, s3, r1, r3 ⟨k.temperature, false, true, true⟩ ?_ rfl, r3 ⟨k.rate, false, true, !quasistatic⟩ ?_ rfl, fun p hp => ⟨?_, ?_⟩⟩
  · simp [heatEntries]
  · simp [heatEntries]
  · refine r4 ⟨p.1, false, false, true⟩ ?_ rfl rfl
    refine List.mem_append_right _ (List.mem_flatMap.2 ⟨p, hp, ?_⟩)
    simp
  · refine r4 ⟨p.2, true, false, true⟩ ?_ rfl rfl
    refine List.mem_append_right _ (List.mem_flatMap.2 ⟨p, hp, ?_⟩)
    simp

/-- With disk checkpoints the restart file itself is replaced: afterwards the file of cycle `c` holds zero for the displacement, whatever
it held before. -/
theorem C28_overwrite_wrong (m : Maps T G) (zero : T) (shape : Nm) (k : SolidNames Nm) (quasistatic : Bool) (params : List (Nm × Nm))
    (v : Nm → T) (t : Tm) (c : ℤ) (s : Store Nm G Tm) (h : Saved m shape (solidEntries k quasistatic params) v t c s) :
    ∃ live s' f, restart m zero shape (solidEntries k quasistatic params) true c s = some (t, live, s') ∧
      s'.files c = some (t, f) ∧ f k.displacement = some (m.P zero) ∧ f shape = some (m.P zero) := by
  obtain ⟨s0, s1, h0, h1, os, h2, h3⟩ := h.saved
  obtain ⟨live, s3, r1, -, r3, -, r5⟩ := rebuild m h.faithful zero shape _ h.nodup h.shape_notMem v t c s0 s1 s h0 h1 os h2 h3 true
  obtain ⟨f, f1, f2, f3⟩ := r5 rfl
  have hmem : (⟨k.displacement, false, true, true⟩ : Entry Nm) ∈ solidEntries k quasistatic params := by simp [solidEntries]
  refine ⟨live, s3, f, r1, f1, ?_, f3⟩
  have := f2 _ hmem rfl
  rw [r3 _ hmem rfl] at this
  exact this

/-! ## Examples -/

def demoMaps : Maps Int Int := ⟨id, id, id, 99⟩
def demoNames : SolidNames String := ⟨"shape_sensitivity", "displacement", "velocity", "acceleration", "adjoint", "reactions"⟩
def demoEntries : List (Entry String) := solidEntries demoNames false [("modulus", "modulus_sensitivity")]
def empty : Store String Int Int :=
  { restart := false, fields := fun _ => none, states := fun _ => false, duals := fun _ => false, files := fun _ => none }

/-- A first run: create the shape field and the module, then write displacement 7, modulus 3 (everything else 1) at time 40, cycle 4. -/
def demoRun : Option (Store String Int Int) := do
  let (_, s) ← storeState demoMaps "shape" empty
  let (_, s) ← build demoMaps 0 demoEntries s
  output demoMaps "shape" demoEntries (fun n => if n = "displacement" then 7 else if n = "modulus" then 3 else 1) 40 4 s

/-- After the restart the modulus is back, the displacement is not. -/
example : (demoRun.bind (fun s => restart demoMaps 0 "shape" demoEntries false 4 s)).map
    (fun r => (r.1, r.2.1 "modulus", r.2.1 "displacement")) = some (40, 3, 0) := by decide

/-- The state manager alone would have returned it. -/
example : (demoRun.bind (fun s => (load demoMaps 0 "shape" 4 (clear s)).bind (fun r => storeState demoMaps "displacement" r.2.2))).map Prod.fst
    = some 7 := by decide

/-- The circumstances assumed by the theorems do occur. -/
example : ∃ s, Saved demoMaps "shape" demoEntries (fun n => if n = "displacement" then 7 else if n = "modulus" then 3 else 1) (40 : Int) 4 s := by
  have h : demoRun.isSome = true := by decide
  unfold demoRun at h
  rw [Option.isSome_iff_exists] at h
  obtain ⟨s, hs⟩ := h
  simp only [Option.bind_eq_bind, Option.bind_eq_some_iff] at hs
  obtain ⟨⟨a, sa⟩, h1, ⟨b, sb⟩, h2, h3⟩ := hs
  refine ⟨s, ⟨fun _ => rfl, fun _ => rfl⟩, by decide, by decide, sb, s, ?_, h3, [], rfl, fun _ _ h => absurd h List.not_mem_nil⟩
  have : ((storeState (Tm := Int) demoMaps "shape" empty).bind (fun r => build demoMaps 0 demoEntries r.2)).map
      (fun r => demoEntries.all (fun e => (r.2.fields e.name).isSome)) = some true := by decide
  rw [h1] at this
  simp only [Option.bind_some] at this
  rw [h2] at this
  simp only [Option.map_some, Option.some.injEq, List.all_eq_true] at this
  intro e he
  exact Option.isSome_iff_ne_none.1 (this e he)

end Serac.C28
