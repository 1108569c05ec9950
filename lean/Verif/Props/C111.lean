import Verif.Model.LifecycleRanks
import Verif.Props.C108
import Mathlib.Logic.Relation
import Mathlib.Algebra.BigOperators.Group.Finset.Basic
import Mathlib.Algebra.Order.BigOperators.Group.Finset
import Mathlib.Tactic.IntervalCases
import Mathlib.Tactic.FinCases
import Mathlib.Data.Fin.VecNotation
/-!
# C111: ranks that flush equally often end together

Spec: a set of ranks is stuck if some rank has not ended and no rank can do anything.  The full claim is that this
never happens, whether or not signals arrive.  It fails if a signal reaches some of the ranks only
(`C111_signal_wrong`); the theorems marked partial are about runs without signals, or with one on every rank while
none of them proceeds.
-/

namespace Serac.C111
open scoped BigOperators
open Serac.Lifecycle Serac.C108

/-- No rank can proceed, although some rank has not ended. -/
def Stuck {n : ℕ} (c : Config) (ms : Fin n → Machine) : Prop :=
  (∃ r, ¬ (ms r).ended) ∧ ∀ ms', ¬ Step c ms ms'

/-- How often a program flushes the logger. -/
def flushes (body : List User) : ℕ := (body.filter fun | .flush => true | .info _ => false).length

/-! ### A rank makes the calls of its program in order -/

theorem straight_start (c : Config) (hm : c.mpiOk = true) (hl : c.logOk = true) (body : List User) (e : Bool)
    (k : ℕ) (hk : k < (startUp c).length) :
    ((next c)^[k] (boot c body e)).ctl = .running ((program c body e).drop k) := by
  cases hp : c.petsc <;> cases hc : c.parallel <;> simp [startUp, hp] at hk <;> interval_cases k <;>
    simp [boot, program, startUp, hp, hc, Lifecycle.next, call, hm, hl, St.emit]

theorem straight_exit {c : Config} {s : St} {msgs : List String} (h : Up c msgs s) (e : Bool) (k : ℕ)
    (hk : k < (exitGracefully c e).length) :
    ((next c)^[k] ⟨s, .running (exitGracefully c e)⟩).ctl = .running ((exitGracefully c e).drop k) := by
  obtain ⟨h1, h2, h3, h4, h5, h6, h7⟩ := h
  have hu := h1.slicMpi h2
  cases hc : c.petsc <;> cases hp : s.prof <;> rw [hc] at h4 <;> simp [exitGracefully, hc] at hk <;>
    interval_cases k <;> simp [exitGracefully, hc, hp, Lifecycle.next, call, h2, h4, hu, St.emit]

theorem straight (c : Config) (hm : c.mpiOk = true) (hl : c.logOk = true) (body : List User) (e : Bool) (k : ℕ)
    (hk : k < (program c body e).length) :
    ((next c)^[k] (boot c body e)).ctl = .running ((program c body e).drop k) := by
  by_cases h1 : k < (startUp c).length
  · exact straight_start c hm hl body e k h1
  · obtain ⟨j, rfl⟩ : ∃ j, k = j + (startUp c).length := ⟨k - (startUp c).length, by omega⟩
    have hd : (program c body e).drop (j + (startUp c).length) =
        (body.map User.instr ++ exitGracefully c e).drop j := by
      rw [Nat.add_comm, ← List.drop_drop, program, List.drop_left]
    obtain ⟨s1, a1, a2⟩ := up_boot body e hm hl
    rw [Function.iterate_add_apply, a1, hd]
    by_cases h2 : j ≤ body.length
    · obtain ⟨s2, b1, -⟩ := up_body (body.take j) ((body.drop j).map User.instr ++ exitGracefully c e) a2
      rw [List.length_take, Nat.min_eq_left h2, ← List.append_assoc, ← List.map_append, List.take_append_drop] at b1
      rw [b1, List.drop_append_of_le_length (by simpa using h2), List.map_drop]
    · obtain ⟨i, rfl⟩ : ∃ i, j = i + body.length := ⟨j - body.length, by omega⟩
      obtain ⟨s2, b1, b2⟩ := up_body body (exitGracefully c e) a2
      have hlen : (program c body e).length = (startUp c).length + (body.length + (exitGracefully c e).length) := by
        simp [program]
      rw [Function.iterate_add_apply, b1, straight_exit b2 e i (by omega), Nat.add_comm, ← List.drop_drop]
      congr 2
      have := List.drop_left (l₁ := body.map User.instr) (l₂ := exitGracefully c e)
      rw [List.length_map] at this
      rw [this]

theorem finish (c : Config) (hm : c.mpiOk = true) (hl : c.logOk = true) (body : List User) (e : Bool) :
    ((next c)^[(program c body e).length] (boot c body e)).ctl = .exited e := by
  have := (C108_normal c body e hm hl).1
  rwa [run_replicate] at this

/-! ### The collective calls of a program -/

def colls (l : List Instr) : List Instr := l.filter Instr.collective

theorem colls_body (body : List User) : colls (body.map User.instr) = List.replicate (flushes body) .flush := by
  induction body with
  | nil => rfl
  | cons u b ih =>
    cases u with
    | info m => simpa [colls, flushes, User.instr, Instr.collective] using ih
    | flush =>
      have h1 : colls ((User.flush :: b).map User.instr) = .flush :: colls (b.map User.instr) := rfl
      have h2 : flushes (User.flush :: b) = flushes b + 1 := rfl
      rw [h1, h2, ih, List.replicate_succ]

theorem colls_exit (c : Config) (e e' : Bool) : colls (exitGracefully c e) = colls (exitGracefully c e') := by
  cases hc : c.petsc <;> simp only [colls, exitGracefully, hc] <;> rfl

theorem colls_program (c : Config) (b b' : List User) (e e' : Bool) (h : flushes b = flushes b') :
    colls (program c b e) = colls (program c b' e') := by
  have hx := colls_exit c e e'
  have h1 := colls_body b
  have h2 := colls_body b'
  unfold colls at hx h1 h2 ⊢
  simp only [program, List.filter_append, h1, h2, h, hx]

/-! ### Every reachable state -/

section
variable {n : ℕ} (c : Config) (start : Fin n → Machine) (L : Fin n → List Instr) (e : Fin n → Bool)

/-- Each rank makes the calls of `L r` in order and then exits. -/
def Straight : Prop :=
  (∀ r k, k < (L r).length → ((next c)^[k] (start r)).ctl = .running ((L r).drop k)) ∧
    ∀ r, ((next c)^[(L r).length] (start r)).ctl = .exited (e r)

/-- The ranks have made `k r` calls each, and the same collective calls. -/
def At (k : Fin n → ℕ) (ms : Fin n → Machine) : Prop :=
  (∀ r, k r ≤ (L r).length ∧ ms r = (next c)^[k r] (start r)) ∧
    ∀ r r', colls ((L r).take (k r)) = colls ((L r').take (k r'))

variable {c start L e}

theorem At.waits {k : Fin n → ℕ} {ms : Fin n → Machine} (h : At c start L k ms) (hg : Straight c start L e) (r : Fin n) :
    ((ms r).ctl = .exited (e r) ∧ k r = (L r).length) ∨
    ∃ hk : k r < (L r).length, ¬ (ms r).ended ∧
      (ms r).waits = if ((L r)[k r]).collective then some (L r)[k r]
        else none := by
  obtain ⟨h1, h2⟩ := h.1 r
  rcases Nat.lt_or_ge (k r) (L r).length with hk | hk
  · right
    have := hg.1 r (k r) hk
    rw [← h2, List.drop_eq_getElem_cons hk] at this
    refine ⟨hk, fun hend => hend _ this, ?_⟩
    simp only [Machine.waits, this]
  · left
    have hk' : k r = (L r).length := le_antisymm h1 hk
    refine ⟨?_, hk'⟩
    rw [h2, hk']
    exact hg.2 r

theorem colls_take_succ (l : List Instr) (k : ℕ) (hk : k < l.length) :
    colls (l.take (k + 1)) = colls (l.take k) ++ if l[k].collective then [l[k]] else [] := by
  unfold colls
  rw [List.take_succ_eq_append_getElem hk, List.filter_append]
  congr 1
  by_cases h : l[k].collective <;> simp [h]

/-- A step moves on one rank, or all of them. -/
theorem At.step {k : Fin n → ℕ} {ms ms' : Fin n → Machine} (h : At c start L k ms) (hg : Straight c start L e) (hs : Step c ms ms') : ∃ k', At c start L k' ms' ∧ ∑ r, k r < ∑ r, k' r := by
  cases hs with
  | alone r hw ha =>
    rcases h.waits hg r with hx | ⟨hk, -, hw'⟩
    · exact absurd (fun code => by rw [hx.1]; simp) ha
    have hc : ((L r)[k r]).collective = false := by
      rw [hw] at hw'
      by_contra hne
      simp [hne] at hw'
    have hcol : ∀ q, colls ((L q).take (Function.update k r (k r + 1) q)) =
        colls ((L q).take (k q)) := by
      intro q
      by_cases hq : q = r
      · subst hq
        rw [Function.update_self, colls_take_succ _ _ hk, hc]
        simp
      · rw [Function.update_of_ne hq]
    refine ⟨Function.update k r (k r + 1), ⟨fun q => ?_, fun q q' => ?_⟩, ?_⟩
    · by_cases hq : q = r
      · subst hq
        rw [Function.update_self, Function.update_self, Function.iterate_succ_apply', ← (h.1 q).2]
        exact ⟨hk, rfl⟩
      · rw [Function.update_of_ne hq, Function.update_of_ne hq]
        exact h.1 q
    · rw [hcol, hcol]
      exact h.2 q q'
    · apply Finset.sum_lt_sum
      · intro q _
        by_cases hq : q = r
        · subst hq; simp
        · rw [Function.update_of_ne hq]
      · exact ⟨r, Finset.mem_univ _, by simp⟩
  | together i hw r =>
    have key : ∀ q, ∃ hk : k q < (L q).length,
        (L q)[k q] = i ∧ i.collective = true := by
      intro q
      rcases h.waits hg q with hx | ⟨hk, -, hw'⟩
      · have := hw q
        simp [Machine.waits, hx.1] at this
      · refine ⟨hk, ?_⟩
        rw [hw q] at hw'
        by_cases hc : ((L q)[k q]).collective
        · rw [if_pos hc] at hw'
          have := Option.some.inj hw'
          exact ⟨this.symm, by rw [this]; exact hc⟩
        · rw [if_neg hc] at hw'
          cases hw'
    have hcol : ∀ q, colls ((L q).take (k q + 1)) =
        colls ((L q).take (k q)) ++ [i] := by
      intro q
      obtain ⟨hk, h1, h2⟩ := key q
      rw [colls_take_succ _ _ hk, h1, h2]
      simp
    refine ⟨fun q => k q + 1, ⟨fun q => ⟨(key q).1, ?_⟩, fun q q' => ?_⟩, ?_⟩
    · rw [Function.iterate_succ_apply', ← (h.1 q).2]
    · rw [hcol, hcol, h.2 q q']
    · exact Finset.sum_lt_sum (fun q _ => Nat.le_succ _) ⟨r, Finset.mem_univ _, Nat.lt_succ_self _⟩

/-- Ranks that have made the same collective calls are not stuck. -/
theorem At.progress {k : Fin n → ℕ} {ms : Fin n → Machine} (h : At c start L k ms) (hg : Straight c start L e) (hf : ∀ r r', colls (L r) = colls (L r')) : ¬ Stuck c ms := by
  rintro ⟨⟨r, hr⟩, hno⟩
  have hwait : ∀ q, ¬ (ms q).ended → (ms q).waits ≠ none := fun q hq hw => hno _ (.alone ms q hw hq)
  have split : ∀ q (hk : k q < (L q).length),
      (L q)[k q].collective = true →
      colls (L q) = colls ((L q).take (k q)) ++
        (L q)[k q] :: colls ((L q).drop (k q + 1)) := by
    intro q hk hc
    have := congrArg colls (List.take_append_drop (k q) (L q))
    rw [← this, List.drop_eq_getElem_cons hk]
    simp only [colls, List.filter_append]
    rw [List.filter_cons_of_pos hc]
  have coll : ∀ q (hk : k q < (L q).length), ¬ (ms q).ended →
      (ms q).waits = (if ((L q)[k q]).collective then some (L q)[k q]
        else none) → (L q)[k q].collective = true := by
    intro q hk hq hw
    by_contra hne
    rw [if_neg hne] at hw
    exact hwait q hq hw
  rcases h.waits hg r with hx | ⟨hk, -, hw⟩
  · exact hr fun code => by rw [hx.1]; simp
  have hc := coll r hk hr hw
  refine hno _ (.together ms (L r)[k r] (fun q => ?_) r)
  have hT := hf r q
  rw [split r hk hc, h.2 r q] at hT
  rcases h.waits hg q with hx | ⟨hkq, hq, hwq⟩
  · rw [hx.2, List.take_length] at hT
    have := congrArg List.length hT
    simp at this
  · have hcq := coll q hkq hq hwq
    rw [split q hkq hcq] at hT
    have := (List.cons.inj (List.append_cancel_left hT)).1
    rw [hwq, if_pos hcq, this]

theorem At.reach {ms : Fin n → Machine} (hg : Straight c start L e)
    (h : Relation.ReflTransGen (Step c) start ms) : ∃ k, At c start L k ms := by
  induction h with
  | refl => exact ⟨fun _ => 0, fun r => ⟨Nat.zero_le _, rfl⟩, fun r r' => by simp⟩
  | tail _ hs ih =>
    obtain ⟨k, hk⟩ := ih
    obtain ⟨k', hk', -⟩ := hk.step hg hs
    exact ⟨k', hk'⟩

end

theorem straight_program {n : ℕ} (c : Config) (body : Fin n → List User) (e : Fin n → Bool) (hm : c.mpiOk = true)
    (hl : c.logOk = true) :
    Straight c (fun r => boot c (body r) (e r)) (fun r => program c (body r) (e r)) e :=
  ⟨fun r k hk => straight c hm hl (body r) (e r) k hk, fun r => finish c hm hl (body r) (e r)⟩

/-! ### An order of events, executed -/

/-- What happens next: a rank proceeds alone, all proceed together, or a signal reaches a rank. -/
inductive Order
  | alone (r : Fin 2) | together | signal (r : Fin 2)

def exec (c : Config) (ms : Machine × Machine) : Order → Machine × Machine
  | .alone r => if r = 0 then (if ms.1.waits = none then (next c ms.1, ms.2) else ms)
      else if ms.2.waits = none then (ms.1, next c ms.2) else ms
  | .together => if ms.1.waits = ms.2.waits ∧ ms.1.waits ≠ none then (next c ms.1, next c ms.2) else ms
  | .signal r => if r = 0 then (signal c ms.1, ms.2) else (ms.1, signal c ms.2)

def ranks (ms : Machine × Machine) : Fin 2 → Machine := ![ms.1, ms.2]

theorem next_ended (c : Config) (m : Machine) (h : m.ended) : next c m = m := by
  unfold next
  split
  · rename_i i rest hx; exact absurd hx (h _)
  · rfl

theorem upd0 (ms : Machine × Machine) (m : Machine) : Function.update (ranks ms) 0 m = ranks (m, ms.2) := by
  funext r; fin_cases r <;> simp [ranks, Function.update]

theorem upd1 (ms : Machine × Machine) (m : Machine) : Function.update (ranks ms) 1 m = ranks (ms.1, m) := by
  funext r; fin_cases r <;> simp [ranks, Function.update]

theorem exec_step (c : Config) (ms : Machine × Machine) (o : Order) (ho : ∀ r, o ≠ .signal r) :
    Relation.ReflTransGen (Step c) (ranks ms) (ranks (exec c ms o)) := by
  cases o with
  | alone r =>
    simp only [exec]
    split
    · split
      · rename_i hw
        by_cases he : ms.1.ended
        · rw [next_ended c _ he]
        · have := Step.alone (c := c) (ranks ms) 0 hw he
          rw [upd0] at this
          exact .single this
      · exact .refl
    · split
      · rename_i hw
        by_cases he : ms.2.ended
        · rw [next_ended c _ he]
        · have := Step.alone (c := c) (ranks ms) 1 hw he
          rw [upd1] at this
          exact .single this
      · exact .refl
  | together =>
    simp only [exec]
    split
    · rename_i hw
      obtain ⟨i, hi⟩ := Option.ne_none_iff_exists'.mp hw.2
      have := Step.together (c := c) (ranks ms) i (by
        intro r; fin_cases r
        · exact hi
        · exact hw.1 ▸ hi) 0
      have e : (fun r => next c (ranks ms r)) = ranks (next c ms.1, next c ms.2) := by
        funext r; fin_cases r <;> rfl
      rw [e] at this
      exact .single this
    · exact .refl
  | signal r => exact absurd rfl (ho r)

theorem exec_reach (c : Config) (ms : Machine × Machine) (o : Order) :
    Relation.ReflTransGen (SignalStep c) (ranks ms) (ranks (exec c ms o)) := by
  by_cases ho : ∀ r, o ≠ .signal r
  · exact Relation.ReflTransGen.mono (fun _ _ h => .step _ _ h) _ _ (exec_step c ms o ho)
  · push Not at ho
    obtain ⟨r, rfl⟩ := ho
    simp only [exec]
    split
    · have := SignalStep.signal (c := c) (ranks ms) 0
      rw [upd0] at this
      exact .single this
    · have := SignalStep.signal (c := c) (ranks ms) 1
      rw [upd1] at this
      exact .single this

theorem execs_step (c : Config) (os : List Order) (ms : Machine × Machine) (ho : ∀ o ∈ os, ∀ r, o ≠ .signal r) :
    Relation.ReflTransGen (Step c) (ranks ms) (ranks (os.foldl (exec c) ms)) := by
  induction os generalizing ms with
  | nil => exact .refl
  | cons o os ih =>
    exact (exec_step c ms o (ho o (by simp))).trans (ih _ fun o' h => ho o' (by simp [h]))

theorem execs_reach (c : Config) (os : List Order) (ms : Machine × Machine) :
    Relation.ReflTransGen (SignalStep c) (ranks ms) (ranks (os.foldl (exec c) ms)) := by
  induction os generalizing ms with
  | nil => exact .refl
  | cons o os ih => exact (exec_reach c ms o).trans (ih _)

theorem stuck_of (c : Config) (m : Machine × Machine) (w0 : m.1.waits = some .profFinalize)
    (w1 : m.2.waits = some .flush) : Stuck c (ranks m) := by
  refine ⟨⟨0, fun he => ?_⟩, fun ms' hs => ?_⟩
  · have w : (ranks m 0).waits = some .profFinalize := w0
    unfold Machine.waits at w
    split at w
    · rename_i hx; exact he _ hx
    · cases w
  · cases hs with
    | alone r hw ha =>
      fin_cases r
      · have := w0.symm.trans hw; cases this
      · have := w1.symm.trans hw; cases this
    | together i hw r =>
      have a : some Instr.profFinalize = some i := w0.symm.trans (hw 0)
      have b : some Instr.flush = some i := w1.symm.trans (hw 1)
      rw [← b] at a
      cases a

/-- Both ranks start; a signal reaches the first; its flush meets the flush of the other's program. -/
def unlucky : List Order :=
  [.together, .alone 0, .alone 0, .alone 0, .alone 0, .alone 1, .alone 1, .alone 1, .alone 1, .together, .alone 0,
    .alone 1, .signal 0, .alone 0, .together, .alone 0, .alone 1]

/-- Two ranks, compiled without PETSc. -/
def two : Config := ⟨true, false, true, true⟩

/-- The rank that a signal reached first: it waits to stop the profiler, or is on its way there. -/
def First (m : Machine) : Prop :=
  m.st.slic = false ∧ m.st.handlers = true ∧
    ((∃ rest, m.ctl = .running (.profFinalize :: rest)) ∨ m.ctl = .running (exitGracefully two true))

/-- The other rank: it waits to flush the logger, or is on its way there. -/
def Second (m : Machine) : Prop :=
  m.st.slic = true ∧ m.st.handlers = true ∧
    ((∃ rest, m.ctl = .running (.flush :: rest)) ∨ m.ctl = .running (exitGracefully two true))

theorem First.signal {m : Machine} (h : First m) : First (signal two m) := by
  obtain ⟨h1, h2, ⟨rest, h3⟩ | h3⟩ := h <;>
    simp [First, Lifecycle.signal, h1, h2, h3, St.emit]

theorem Second.signal {m : Machine} (h : Second m) : Second (signal two m) := by
  obtain ⟨h1, h2, ⟨rest, h3⟩ | h3⟩ := h <;>
    simp [Second, Lifecycle.signal, h1, h2, h3, St.emit]

theorem First.next {m : Machine} (h : First m) (hw : m.waits = none) : First (next two m) := by
  obtain ⟨h1, h2, ⟨rest, h3⟩ | h3⟩ := h
  · simp [Machine.waits, h3, Instr.collective] at hw
  · exact ⟨by simp [Lifecycle.next, h3, exitGracefully, call, h1], by simp [Lifecycle.next, h3, exitGracefully, call, h2],
      .inl ⟨_, by simp [Lifecycle.next, h3, exitGracefully, call, h1, two]; rfl⟩⟩

theorem Second.next {m : Machine} (h : Second m) (hw : m.waits = none) : Second (next two m) := by
  obtain ⟨h1, h2, ⟨rest, h3⟩ | h3⟩ := h
  · simp [Machine.waits, h3, Instr.collective] at hw
  · exact ⟨by simp [Lifecycle.next, h3, exitGracefully, call, h1], by simp [Lifecycle.next, h3, exitGracefully, call, h2],
      .inl ⟨_, by simp [Lifecycle.next, h3, exitGracefully, call, h1, two]; rfl⟩⟩

theorem First.waits {m : Machine} (h : First m) : m.waits ≠ some .flush ∧ ¬ m.ended := by
  obtain ⟨h1, h2, ⟨rest, h3⟩ | h3⟩ := h
  · exact ⟨by simp [Machine.waits, h3, Instr.collective], fun he => he _ h3⟩
  · exact ⟨by simp [Machine.waits, h3, exitGracefully, Instr.collective], fun he => he _ h3⟩

theorem Second.waits {m : Machine} (h : Second m) : (m.waits = none ∨ m.waits = some .flush) ∧ ¬ m.ended := by
  obtain ⟨h1, h2, ⟨rest, h3⟩ | h3⟩ := h
  · exact ⟨by simp [Machine.waits, h3, Instr.collective], fun he => he _ h3⟩
  · exact ⟨by simp [Machine.waits, h3, exitGracefully, Instr.collective], fun he => he _ h3⟩

theorem waits_code {m : Machine} {i : Instr} (h : m.waits = some i) : ∃ rest, m.ctl = .running (i :: rest) := by
  unfold Machine.waits at h
  split at h
  · rename_i j rest hx
    by_cases hc : j.collective
    · rw [if_pos hc] at h
      cases h
      exact ⟨rest, hx⟩
    · rw [if_neg hc] at h
      cases h
  · cases h

theorem forever {ms ms' : Fin 2 → Machine} (h0 : First (ms 0)) (h1 : Second (ms 1))
    (h : Relation.ReflTransGen (SignalStep two) ms ms') : First (ms' 0) ∧ Second (ms' 1) := by
  induction h with
  | refl => exact ⟨h0, h1⟩
  | tail _ hs ih =>
    obtain ⟨i0, i1⟩ := ih
    cases hs with
    | step _ h =>
      cases h with
      | alone r hw ha =>
        fin_cases r
        · exact ⟨by simpa using i0.next hw, by simpa using i1⟩
        · exact ⟨by simpa using i0, by simpa using i1.next hw⟩
      | together i hw r =>
        have a := i0.waits.1
        rw [hw 0] at a
        rcases i1.waits.1 with b | b
        · rw [hw 1] at b; cases b
        · rw [hw 1] at b; exact absurd b a
    | signal r =>
      fin_cases r
      · exact ⟨by simpa using i0.signal, by simpa using i1⟩
      · exact ⟨by simpa using i0, by simpa using i1.signal⟩

/-! ### Main theorems -/

/-- However many ranks there are and however fast each of them is: if MPI and the logger start and every rank
flushes the logger equally often, whatever it logs in between, the ranks never wait for each other for ever. -/
theorem C111_progress_partial {n : ℕ} (c : Config) (body : Fin n → List User) (error : Fin n → Bool)
    (hm : c.mpiOk = true) (hl : c.logOk = true) (hf : ∀ r r', flushes (body r) = flushes (body r'))
    (ms : Fin n → Machine)
    (h : Relation.ReflTransGen (Step c) (fun r => boot c (body r) (error r)) ms) : ¬ Stuck c ms := by
  have hg := straight_program c body error hm hl
  obtain ⟨k, hk⟩ := At.reach hg h
  exact hk.progress hg fun r r' => colls_program c _ _ _ _ (hf r r')

/-- No order of events goes on for ever: the number of steps is bounded by the number of calls in the programs. -/
theorem C111_terminates {n : ℕ} (c : Config) (body : Fin n → List User) (error : Fin n → Bool)
    (hm : c.mpiOk = true) (hl : c.logOk = true) (run : ℕ → Fin n → Machine)
    (h0 : run 0 = fun r => boot c (body r) (error r)) (N : ℕ) (hs : ∀ j < N, Step c (run j) (run (j + 1))) :
    N ≤ ∑ r, (program c (body r) (error r)).length := by
  have hg := straight_program c body error hm hl
  have : ∀ j ≤ N, ∃ k, At c (fun r => boot c (body r) (error r))
      (fun r => program c (body r) (error r)) k (run j) ∧ j ≤ ∑ r, k r := by
    intro j
    induction j with
    | zero =>
      intro _
      rw [h0]
      exact ⟨fun _ => 0, ⟨fun r => ⟨Nat.zero_le _, rfl⟩, fun r r' => by simp⟩, Nat.zero_le _⟩
    | succ j ih =>
      intro hj
      obtain ⟨k, hk, hle⟩ := ih (by omega)
      obtain ⟨k', hk', hlt⟩ := hk.step hg (hs j (by omega))
      exact ⟨k', hk', by omega⟩
  obtain ⟨k, hk, hle⟩ := this N le_rfl
  exact hle.trans (Finset.sum_le_sum fun r _ => (hk.1 r).1)

/-- Once nothing more can happen, every rank has exited with the status its program asked for. -/
theorem C111_together_partial {n : ℕ} (c : Config) (body : Fin n → List User) (error : Fin n → Bool)
    (hm : c.mpiOk = true) (hl : c.logOk = true) (hf : ∀ r r', flushes (body r) = flushes (body r'))
    (ms : Fin n → Machine)
    (h : Relation.ReflTransGen (Step c) (fun r => boot c (body r) (error r)) ms)
    (hend : ∀ ms', ¬ Step c ms ms') : ∀ r, (ms r).ctl = .exited (error r) := by
  have hg := straight_program c body error hm hl
  obtain ⟨k, hk⟩ := At.reach hg h
  intro r
  rcases hk.waits hg r with hx | ⟨-, hne, -⟩
  · exact hx.1
  · exact absurd ⟨⟨r, hne⟩, hend⟩ (hk.progress hg fun r r' => colls_program c _ _ _ _ (hf r r'))

/-- If a signal reaches every rank between start-up and `exitGracefully`, and no rank does anything from the first of
these signals to the last, the ranks do not wait for each other for ever, and end with failure.  The ranks may be at
different places in programs with different numbers of flushes. -/
theorem C111_interrupted_partial {n : ℕ} (c : Config) (body done rest : Fin n → List User) (error : Fin n → Bool)
    (hm : c.mpiOk = true) (hl : c.logOk = true) (hb : ∀ r, body r = done r ++ rest r)
    (ms : Fin n → Machine)
    (h : Relation.ReflTransGen (Step c) (fun r => signal c
      ((next c)^[(startUp c).length + (done r).length] (boot c (body r) (error r)))) ms) :
    ¬ Stuck c ms ∧ ((∀ ms', ¬ Step c ms ms') → ∀ r, (ms r).ctl = .exited true) := by
  have hst : ∀ r, ∃ s msgs, Up c msgs s ∧ signal c
      ((next c)^[(startUp c).length + (done r).length] (boot c (body r) (error r))) =
        ⟨s, .running (exitGracefully c true)⟩ := by
    intro r
    obtain ⟨s1, a1, a2⟩ := up_boot (body r) (error r) hm hl
    obtain ⟨s2, b1, b2⟩ := up_body (done r) ((rest r).map User.instr ++ exitGracefully c (error r)) a2
    rw [Nat.add_comm, Function.iterate_add_apply, a1, hb r, List.map_append, List.append_assoc, b1]
    have f3 : Up c ([hello c] ++ said (done r)) (s2.emit .signalled) := by
      obtain ⟨h1, h2, h3, h4, h5, h6, h7⟩ := b2
      have h6' : (s2.trace ++ [Ev.signalled]).count (.started .petsc) =
          (s2.trace ++ [Ev.signalled]).count (.stopped .petsc) + if s2.petsc then 1 else 0 := by
        simpa using h6
      exact ⟨inv_signalled h1, h2, h3, h4, by simpa [St.emit] using h5, h6', by simpa [St.emit, logs] using h7⟩
    exact ⟨_, _, f3, by simp [Lifecycle.signal, b2.handlers]⟩
  have hg : Straight c (fun r => signal c
      ((next c)^[(startUp c).length + (done r).length] (boot c (body r) (error r))))
      (fun _ => exitGracefully c true) (fun _ => true) := by
    refine ⟨fun r k hk => ?_, fun r => ?_⟩
    · obtain ⟨s, msgs, hu, he⟩ := hst r
      simp only [he]
      exact straight_exit hu true k hk
    · obtain ⟨s, msgs, hu, he⟩ := hst r
      obtain ⟨s', h1, -⟩ := up_exit hu true
      simp only [he]
      rw [h1]
  obtain ⟨k, hk⟩ := At.reach hg h
  have hp := hk.progress hg fun _ _ => rfl
  refine ⟨hp, fun hend r => ?_⟩
  rcases hk.waits hg r with hx | ⟨-, hne, -⟩
  · exact hx.1
  · exact absurd ⟨⟨r, hne⟩, hend⟩ hp

/-- A signal that reaches one of two ranks with the same program can leave both waiting for ever: the one to stop
the profiler (or MPI, if stopping the profiler does not wait), the other to flush the logger.  Further signals, on
whichever rank, do not end them either. -/
theorem C111_signal_wrong : ∃ (c : Config) (body : List User) (ms : Fin 2 → Machine),
    c.mpiOk = true ∧ c.logOk = true ∧
      Relation.ReflTransGen (SignalStep c) (fun _ => boot c body false) ms ∧ Stuck c ms ∧
        ∀ ms', Relation.ReflTransGen (SignalStep c) ms ms' → ∀ r, ¬ (ms' r).ended := by
  let b := boot two [.flush] false
  let m := unlucky.foldl (exec two) (b, b)
  have w0 : m.1.waits = some .profFinalize := by decide
  have w1 : m.2.waits = some .flush := by decide
  have f0 : First m.1 := ⟨by decide, by decide, .inl (waits_code w0)⟩
  have f1 : Second m.2 := ⟨by decide, by decide, .inl (waits_code w1)⟩
  have h := execs_reach two unlucky (b, b)
  have e : ranks (b, b) = fun _ => boot two [.flush] false := by funext r; fin_cases r <;> rfl
  rw [e] at h
  change Relation.ReflTransGen _ _ (ranks m) at h
  clear_value m
  refine ⟨two, [.flush], ranks m, rfl, rfl, h, stuck_of two _ w0 w1, fun ms' h' r => ?_⟩
  obtain ⟨g0, g1⟩ := forever (ms := ranks m) f0 f1 h'
  fin_cases r
  · exact g0.waits.2
  · exact g1.waits.2

/-- Ranks that flush the logger differently often can wait for ever, without any signal: so `C111_progress_partial`
needs its hypothesis. -/
theorem C111_uneven_wrong : ∃ (c : Config) (body : Fin 2 → List User) (ms : Fin 2 → Machine),
    c.mpiOk = true ∧ c.logOk = true ∧
      Relation.ReflTransGen (Step c) (fun r => boot c (body r) false) ms ∧ Stuck c ms := by
  let c : Config := ⟨true, false, true, true⟩
  let b0 := boot c [] false
  let b1 := boot c [.flush] false
  let os : List Order := [.together, .alone 0, .alone 0, .alone 0, .alone 0, .alone 1, .alone 1, .alone 1, .alone 1,
    .together, .alone 0, .alone 1, .alone 0, .together, .alone 0, .alone 1]
  let m := os.foldl (exec c) (b0, b1)
  have w0 : m.1.waits = some .profFinalize := by decide
  have w1 : m.2.waits = some .flush := by decide
  refine ⟨c, ![[], [.flush]], ranks m, rfl, rfl, ?_, stuck_of c _ w0 w1⟩
  · have h := execs_step c os (b0, b1) (by simp [os])
    have e : ranks (b0, b1) = fun r => boot c ((![[], [.flush]] : Fin 2 → List User) r) false := by
      funext r; fin_cases r <;> rfl
    rw [e] at h
    exact h

/-! ### The hypotheses can be met -/

/-- Three ranks log different numbers of messages, flush twice each, and one of them asks for an error. -/
example (ms : Fin 3 → Machine)
    (h : Relation.ReflTransGen (Step ⟨true, true, true, true⟩) (fun r => boot ⟨true, true, true, true⟩
      ((![[.flush, .info "a", .flush], [.info "b", .flush, .flush, .info "c"], [.flush, .flush]] :
        Fin 3 → List User) r) ((![false, true, false] : Fin 3 → Bool) r)) ms)
    (hend : ∀ ms', ¬ Step ⟨true, true, true, true⟩ ms ms') : (ms 1).ctl = .exited true :=
  C111_together_partial _ _ _ rfl rfl (by decide) ms h hend 1

/-- Two ranks at different places in the same program are interrupted. -/
example (ms : Fin 2 → Machine)
    (h : Relation.ReflTransGen (Step two) (fun r => signal two ((next two)^[(startUp two).length +
      ((![[.info "a"], [.info "a", .flush]] : Fin 2 → List User) r).length]
        (boot two [.info "a", .flush, .flush] false))) ms) : ¬ Stuck two ms :=
  (C111_interrupted_partial two (fun _ => [.info "a", .flush, .flush]) ![[.info "a"], [.info "a", .flush]]
    ![[.flush, .flush], [.flush]] (fun _ => false) rfl rfl (by intro r; fin_cases r <;> rfl) ms h).1

end Serac.C111
