import Verif.Model.Checkpoint
import Mathlib.Algebra.Group.Basic
import Mathlib.Algebra.Group.Int.Defs
import Mathlib.Data.List.GetD
import Mathlib.Data.List.Induction
import Mathlib.Tactic.Linarith
/-!
# C27: checkpointed history is recoverable

Spec.  A `Timeline` is what really happened: the field values at each cycle since the last reset, the size of each step, and where the
user currently stands.  A forward step taken at cycle `k` makes `k+1` the latest cycle and what was recorded beyond it obsolete.

Violations found:
* disk checkpoints return the values the fields have at the time of the question instead of the stored ones, and overwrite the live fields
  (`C27_disk_query_wrong`); reverse steps therefore never go back (`C27_disk_reverse_wrong`); the one-entry cache outlives the file it was
  read from (`C27_disk_cache_wrong`);
* with memory checkpoints, a forward step taken after reverse steps is not recorded (`C27_readvance_wrong`);
* a module started at a cycle `c ≠ 0` finds its history shifted by `c` (`C27_offset_wrong`), and a reverse step is refused or uses the
  wrong record (`C27_offset_reverse_wrong`).
-/

namespace Serac.C27
open Serac.Checkpoint

variable {N V R : Type} [DecidableEq N]

/-! ## Spec -/

/-- What happened since the last reset (which was to cycle 0). -/
structure Timeline (N V R : Type) where
  /-- the fields at each cycle -/
  states : ℕ → N → V
  /-- the step from cycle `k` to `k+1` -/
  dts : ℕ → R
  /-- the cycle the user stands at -/
  now : ℕ
  /-- the last cycle of the current history -/
  top : ℕ
  /-- the time of cycle 0 -/
  start : R
  /-- the fields as the user sees them -/
  live : N → V

/-- The time at cycle `k`. -/
def Timeline.clock [Add R] (t : Timeline N V R) : ℕ → R
  | 0 => t.start
  | k + 1 => t.clock k + t.dts k

/-- What each call means. -/
def Timeline.step (zero : N → V) : Op N V R → Timeline N V R → Timeline N V R
  | .reset _ t0, t => { t with states := fun _ => zero, now := 0, top := 0, start := t0, live := zero }
  | .setState n v, t =>
    { t with live := Function.update t.live n v, states := Function.update t.states t.now (Function.update (t.states t.now) n v) }
  | .completeSetup, t => { t with states := Function.update t.states t.now t.live }
  | .advance dt s, t =>
    { t with states := Function.update t.states (t.now + 1) s, dts := Function.update t.dts t.now dt, now := t.now + 1, top := t.now + 1,
             live := s }
  | .reverse, t => { t with now := t.now - 1, live := t.states t.now }
  | .resetAdjoint, t => { t with now := t.top }
  | .query _ _, t => t

def Timeline.run (zero : N → V) (ops : List (Op N V R)) (t : Timeline N V R) : Timeline N V R :=
  ops.foldl (fun t op => t.step zero op) t

/-- The orders of calls that the memory checkpoints support: resets to cycle 0, setup before the first step, forward steps only from the
latest cycle, reverse steps only while there is a step to reverse, questions about cycles of the history. -/
def Supported (names : List N) : Op N V R → Timeline N V R → Prop
  | .reset c _, _ => c = 0
  | .setState n _, _ => n ∈ names
  | .completeSetup, t => t.top = 0
  | .advance _ _, t => t.now = t.top
  | .reverse, t => 0 < t.now
  | .resetAdjoint, _ => True
  | .query n c, t => n ∈ names ∧ 0 ≤ c ∧ c ≤ t.top

def AllSupported (zero : N → V) (names : List N) : List (Op N V R) → Timeline N V R → Prop
  | [], _ => True
  | op :: ops, t => Supported names op t ∧ AllSupported zero names ops (t.step zero op)

/-- The history a reset to cycle 0 begins. -/
def fresh (zero : N → V) (t0 : R) (dts : ℕ → R) : Timeline N V R :=
  { states := fun _ => zero, dts := dts, now := 0, top := 0, start := t0, live := zero }

/-! ## Invariant -/

structure Inv [AddGroup R] (t : Timeline N V R) (p : Phys N V R) : Prop where
  mode : p.toDisk = false
  minCycle : p.minCycle = 0
  cycle : p.cycle = t.now
  maxCycle : p.maxCycle = t.top
  le : t.now ≤ t.top
  stepsLen : p.steps.length = t.top
  steps : ∀ k < t.top, p.steps[k]? = some (t.dts k)
  memLen : ∀ n ∈ p.names, (p.mem n).length = t.top + 1
  mem : ∀ n ∈ p.names, ∀ k ≤ t.top, (p.mem n)[k]? = some (t.states k n)
  live : ∀ n ∈ p.names, p.live n = t.live n
  time : p.time = t.clock t.now
  maxTime : p.maxTime = t.clock t.top

theorem clock_congr [Add R] (t t' : Timeline N V R) (hs : t.start = t'.start) (k : ℕ) (hd : ∀ j < k, t.dts j = t'.dts j) :
    t.clock k = t'.clock k := by
  induction k with
  | zero => exact hs
  | succ k ih =>
    rw [Timeline.clock, Timeline.clock, ih (fun j hj => hd j (by omega)), hd k (by omega)]

theorem at?_cast (l : List V) (k : ℕ) : at? l (k : ℤ) = l[k]? := by
  rw [at?, if_neg (by omega), Int.toNat_natCast]

variable [AddGroup R]

theorem inv_reset (zero : N → V) (t0 : R) (p : Phys N V R) (hm : p.toDisk = false) (dts : ℕ → R) :
    Inv (fresh zero t0 dts) (reset zero 0 t0 p) := by
  unfold reset
  dsimp only
  rw [if_neg (by rw [hm]; decide)]
  refine ⟨hm, rfl, rfl, rfl, le_refl _, rfl, fun k hk => absurd hk (Nat.not_lt_zero k), ?_, ?_, ?_, rfl, rfl⟩
  · intro n hn
    simp only [restartMemory] at hn ⊢
    rw [if_pos hn]; rfl
  · intro n hn k hk
    simp only [restartMemory] at hn ⊢
    rw [if_pos hn]
    have : k = 0 := Nat.le_zero.1 hk
    subst this; rfl
  · intro n _; rfl

theorem query_memory (t : Timeline N V R) (p : Phys N V R) (h : Inv t p) (n : N) (hn : n ∈ p.names) (k : ℕ) (hk : k ≤ t.top) :
    load p n k = some (t.states k n, p) := by
  rw [load, if_neg (by rw [h.mode]; decide), at?_cast, h.mem n hn k hk]; rfl

theorem timestep_memory (t : Timeline N V R) (p : Phys N V R) (h : Inv t p) (k : ℕ) (hk : k < t.top) :
    timestep p k = some (t.dts k) := by
  have hl := h.stepsLen
  rw [timestep, if_neg (by omega), if_neg (by rw [hl]; omega), if_pos (by rw [hl]; omega), Int.toNat_natCast,
    List.getD_eq_getElem?_getD, h.steps k hk]
  rfl

omit [AddGroup R] in
theorem fromMemory_eq (t : Timeline N V R) (p : Phys N V R)
    (h : ∀ n ∈ p.names, ∀ k ≤ t.top, (p.mem n)[k]? = some (t.states k n)) (k : ℕ) (hk : k ≤ t.top) :
    ∃ m, fromMemory p k = some m ∧ ∀ n ∈ p.names, m n = t.states k n := by
  refine ⟨fun n => (at? (p.mem n) k).getD (p.live n), ?_, ?_⟩
  · rw [fromMemory, if_pos]
    rw [List.all_eq_true]
    intro n hn
    rw [at?_cast, h n hn k hk]; rfl
  · intro n hn
    show (at? (p.mem n) k).getD (p.live n) = _
    rw [at?_cast, h n hn k hk]; rfl

theorem inv_step (zero : N → V) (op : Op N V R) (t : Timeline N V R) (p : Phys N V R) (h : Inv t p) (hs : Supported p.names op t) :
    ∃ q, step zero op p = some q ∧ q.names = p.names ∧ Inv (t.step zero op) q := by
  have hmode : ¬ p.toDisk = true := by rw [h.mode]; decide
  cases op with
  | reset c t0 =>
    have hc : c = 0 := hs
    subst hc
    refine ⟨_, rfl, ?_, inv_reset zero t0 p h.mode t.dts⟩
    unfold reset; dsimp only; rw [if_neg hmode]; rfl
  | setState n v =>
    have hn : n ∈ p.names := hs
    have hlen := h.memLen n hn
    have hle := h.le
    have hset : set? (p.mem n) p.cycle v = some ((p.mem n).set t.now v) := by
      rw [set?, h.cycle, Int.toNat_natCast, if_pos ⟨by omega, by rw [hlen]; omega⟩]
    refine ⟨{ p with live := Function.update p.live n v, mem := Function.update p.mem n ((p.mem n).set t.now v) }, ?_, rfl, ?_⟩
    · show setState n v p = _
      unfold setState
      dsimp only
      rw [if_neg hmode, hset]; rfl
    · refine ⟨h.mode, h.minCycle, h.cycle, h.maxCycle, h.le, h.stepsLen, h.steps, ?_, ?_, ?_, ?_, ?_⟩
      · intro m hm
        show (Function.update p.mem n ((p.mem n).set t.now v) m).length = t.top + 1
        by_cases hmn : m = n
        · subst hmn; rw [Function.update_self, List.length_set]; exact hlen
        · rw [Function.update_of_ne hmn]; exact h.memLen m hm
      · intro m hm k hk
        show (Function.update p.mem n ((p.mem n).set t.now v) m)[k]? =
          some (Function.update t.states t.now (Function.update (t.states t.now) n v) k m)
        have hk' : k ≤ t.top := hk
        by_cases hmn : m = n
        · subst hmn
          rw [Function.update_self]
          by_cases hkn : k = t.now
          · subst hkn
            rw [Function.update_self, Function.update_self, List.getElem?_set_self (by rw [hlen]; omega)]
          · rw [Function.update_of_ne hkn, List.getElem?_set_ne (by omega)]
            exact h.mem m hm k hk'
        · rw [Function.update_of_ne hmn, h.mem m hm k hk']
          by_cases hkn : k = t.now
          · subst hkn
            rw [Function.update_self, Function.update_of_ne hmn]
          · rw [Function.update_of_ne hkn]
      · intro m hm
        show Function.update p.live n v m = Function.update t.live n v m
        by_cases hmn : m = n
        · subst hmn; rw [Function.update_self, Function.update_self]
        · rw [Function.update_of_ne hmn, Function.update_of_ne hmn]; exact h.live m hm
      · rw [show (t.step zero (Op.setState n v)).clock (t.step zero (Op.setState n v)).now = t.clock t.now by
          apply clock_congr <;> intros <;> rfl]
        exact h.time
      · rw [show (t.step zero (Op.setState n v)).clock (t.step zero (Op.setState n v)).top = t.clock t.top by
          apply clock_congr <;> intros <;> rfl]
        exact h.maxTime
  | completeSetup =>
    have ht : t.top = 0 := hs
    have hnow : t.now = 0 := by have := h.le; omega
    refine ⟨restartMemory p, ?_, rfl, ?_⟩
    · show some (completeSetup p) = _
      rw [completeSetup, if_neg hmode]
    · refine ⟨h.mode, h.minCycle, h.cycle, h.maxCycle, h.le, h.stepsLen, h.steps, ?_, ?_, h.live, ?_, ?_⟩
      · intro n hn
        have hn' : n ∈ p.names := hn
        show (if n ∈ p.names then [p.live n] else []).length = t.top + 1
        rw [if_pos hn', ht]; rfl
      · intro n hn k hk
        have hn' : n ∈ p.names := hn
        have hk0 : k = 0 := by have : k ≤ t.top := hk; omega
        subst hk0
        show (if n ∈ p.names then [p.live n] else [])[0]? = some (Function.update t.states t.now t.live 0 n)
        rw [if_pos hn', hnow, Function.update_self, ← h.live n hn']; rfl
      · rw [show (t.step zero (Op.completeSetup)).clock (t.step zero (Op.completeSetup)).now = t.clock t.now by
          apply clock_congr <;> intros <;> rfl]
        exact h.time
      · rw [show (t.step zero (Op.completeSetup)).clock (t.step zero (Op.completeSetup)).top = t.clock t.top by
          apply clock_congr <;> intros <;> rfl]
        exact h.maxTime
  | advance dt s =>
    have hnt : t.now = t.top := hs
    have hcl : (t.step zero (Op.advance dt s)).clock (t.now + 1) = t.clock t.now + dt := by
      rw [Timeline.clock]
      have : (t.step zero (Op.advance dt s)).dts t.now = dt := by
        show Function.update t.dts t.now dt t.now = dt
        rw [Function.update_self]
      rw [this]
      congr 1
      refine clock_congr (t.step zero (Op.advance dt s)) t rfl _ (fun j hj => ?_)
      show Function.update t.dts t.now dt j = t.dts j
      rw [Function.update_of_ne (by omega)]
    refine ⟨advance dt s p, rfl, ?_, ?_⟩
    · unfold advance; dsimp only
      rw [if_neg hmode]
      split_ifs <;> rfl
    · have hgt : p.cycle + 1 > p.maxCycle := by rw [h.cycle, h.maxCycle, hnt]; omega
      have hadv : advance dt s p =
          { p with live := s, time := p.time + dt, cycle := p.cycle + 1,
                   mem := fun n => if n ∈ p.names then p.mem n ++ [s n] else p.mem n,
                   steps := p.steps ++ [dt], maxCycle := p.cycle + 1, maxTime := p.time + dt } := by
        unfold advance; dsimp only
        rw [if_neg hmode]
        unfold pushMemory; dsimp only
        rw [if_pos hgt]
      rw [hadv]
      refine ⟨h.mode, h.minCycle, ?_, ?_, le_refl _, ?_, ?_, ?_, ?_, fun n _ => rfl, ?_, ?_⟩
      · show p.cycle + 1 = ((t.now + 1 : ℕ) : ℤ)
        rw [h.cycle]; omega
      · show p.cycle + 1 = ((t.now + 1 : ℕ) : ℤ)
        rw [h.cycle]; omega
      · show (p.steps ++ [dt]).length = t.now + 1
        rw [List.length_append, h.stepsLen, hnt]; rfl
      · intro k hk
        show (p.steps ++ [dt])[k]? = some (Function.update t.dts t.now dt k)
        have hk' : k < t.now + 1 := hk
        by_cases hkn : k = t.now
        · subst hkn
          rw [Function.update_self, List.getElem?_append_right (by rw [h.stepsLen]; omega), h.stepsLen, hnt, Nat.sub_self]; rfl
        · rw [Function.update_of_ne hkn, List.getElem?_append_left (by rw [h.stepsLen]; omega)]
          exact h.steps k (by omega)
      · intro n hn
        have hn' : n ∈ p.names := hn
        show (if n ∈ p.names then p.mem n ++ [s n] else p.mem n).length = t.now + 1 + 1
        rw [if_pos hn', List.length_append, h.memLen n hn', hnt]; rfl
      · intro n hn k hk
        have hn' : n ∈ p.names := hn
        have hk' : k ≤ t.now + 1 := hk
        show (if n ∈ p.names then p.mem n ++ [s n] else p.mem n)[k]? = some (Function.update t.states (t.now + 1) s k n)
        rw [if_pos hn']
        by_cases hkn : k = t.now + 1
        · subst hkn
          rw [Function.update_self, List.getElem?_append_right (by rw [h.memLen n hn']; omega), h.memLen n hn', hnt, Nat.sub_self]; rfl
        · rw [Function.update_of_ne hkn, List.getElem?_append_left (by rw [h.memLen n hn']; omega)]
          exact h.mem n hn' k (by omega)
      · show p.time + dt = (t.step zero (Op.advance dt s)).clock (t.now + 1)
        rw [hcl, h.time]
      · show p.time + dt = (t.step zero (Op.advance dt s)).clock (t.now + 1)
        rw [hcl, h.time]
  | reverse =>
    have hpos : 0 < t.now := hs
    have hle := h.le
    obtain ⟨m, hm, hmn⟩ := fromMemory_eq t { p with cycle := p.cycle - 1 } h.mem t.now hle
    have hcy : p.cycle - 1 = ((t.now - 1 : ℕ) : ℤ) := by rw [h.cycle]; omega
    have hdt : timestep { p with cycle := p.cycle - 1 } (p.cycle - 1) = some (t.dts (t.now - 1)) := by
      rw [hcy]
      exact timestep_memory t p h (t.now - 1) (by omega)
    have hget : getStates { p with cycle := p.cycle - 1 } (p.cycle - 1 + 1) = some (m, { p with cycle := p.cycle - 1 }) := by
      rw [getStates, if_neg hmode, show p.cycle - 1 + 1 = ((t.now : ℕ) : ℤ) by rw [h.cycle]; omega, hm]; rfl
    have hnext : ∃ d, (if p.solid then timestep { p with cycle := p.cycle - 1 } (p.cycle - 1 + 1) else some (0 : R)) = some d := by
      split_ifs
      · have hl := h.stepsLen
        rw [timestep, if_neg (by rw [h.cycle]; omega), if_neg (by rw [h.cycle]; show ¬ ((t.now : ℤ) - 1 + 1 > (p.steps.length : ℤ)); omega)]
        exact ⟨_, rfl⟩
      · exact ⟨_, rfl⟩
    have hrev : reverse p = some { p with cycle := p.cycle - 1, live := fun n => if n ∈ p.names then m n else p.live n,
                                          time := p.time - t.dts (t.now - 1) } := by
      unfold reverse
      rw [if_neg (by rw [h.cycle, h.minCycle]; omega)]
      dsimp only
      obtain ⟨d, hd⟩ := hnext
      rw [hd]
      dsimp only [Option.bind_eq_bind, Option.bind_some]
      rw [hdt]
      dsimp only [Option.bind_eq_bind, Option.bind_some]
      rw [hget]
      rfl
    refine ⟨_, hrev, rfl, h.mode, h.minCycle, hcy, h.maxCycle, ?_, h.stepsLen, h.steps, h.memLen, h.mem, ?_, ?_, ?_⟩
    · show t.now - 1 ≤ t.top
      omega
    · intro n hn
      have hn' : n ∈ p.names := hn
      show (if n ∈ p.names then m n else p.live n) = t.states t.now n
      rw [if_pos hn']; exact hmn n hn'
    · show p.time - t.dts (t.now - 1) = (t.step zero Op.reverse).clock (t.now - 1)
      rw [h.time, show (t.step zero Op.reverse).clock (t.now - 1) = t.clock (t.now - 1) by
        apply clock_congr <;> intros <;> rfl]
      obtain ⟨j, hj⟩ : ∃ j, t.now = j + 1 := ⟨t.now - 1, by omega⟩
      rw [hj, Nat.add_sub_cancel, Timeline.clock, add_sub_cancel_right]
    · rw [show (t.step zero (Op.reverse)).clock (t.step zero (Op.reverse)).top = t.clock t.top by
          apply clock_congr <;> intros <;> rfl]
      exact h.maxTime
  | resetAdjoint =>
    refine ⟨resetAdjoint p, rfl, rfl, h.mode, h.minCycle, h.maxCycle, h.maxCycle, le_refl _, h.stepsLen, h.steps, h.memLen, h.mem, h.live,
      ?_, ?_⟩
    · rw [show (t.step zero (Op.resetAdjoint)).clock (t.step zero (Op.resetAdjoint)).now = t.clock t.top by
          apply clock_congr <;> intros <;> rfl]
      exact h.maxTime
    · rw [show (t.step zero (Op.resetAdjoint)).clock (t.step zero (Op.resetAdjoint)).top = t.clock t.top by
          apply clock_congr <;> intros <;> rfl]
      exact h.maxTime
  | query n c =>
    obtain ⟨hn, h0, hc⟩ := hs
    obtain ⟨k, rfl⟩ := Int.eq_ofNat_of_zero_le h0
    refine ⟨p, ?_, rfl, h⟩
    show (load p n k).map Prod.snd = _
    rw [query_memory t p h n hn k (by exact_mod_cast hc)]; rfl

theorem inv_run (zero : N → V) (ops : List (Op N V R)) (t : Timeline N V R) (p : Phys N V R) (h : Inv t p)
    (hs : AllSupported zero p.names ops t) :
    ∃ q, run zero ops p = some q ∧ q.names = p.names ∧ Inv (t.run zero ops) q := by
  induction ops generalizing t p with
  | nil => exact ⟨p, rfl, rfl, h⟩
  | cons op ops ih =>
    obtain ⟨h1, h2⟩ := hs
    obtain ⟨q, hq, hqn, hqi⟩ := inv_step zero op t p h h1
    obtain ⟨r, hr, hrn, hri⟩ := ih _ q hqi (by rw [hqn]; exact h2)
    refine ⟨r, ?_, hrn.trans hqn, hri⟩
    rw [run, hq]
    exact hr

/-! ## The property, for memory checkpoints and supported call orders -/

/-- Any sequence of supported calls on a module with memory checkpoints runs without error, and afterwards every cycle of the history is
returned exactly, with its step size; asking changes nothing; the live fields, cycle and clock are those of the timeline.

Missing for the full claim: disk checkpoints, forward steps after reverse steps, and start cycles other than 0 - in each of these the
code is wrong, see below. -/
theorem C27_history_partial (zero : N → V) (t0 : R) (p : Phys N V R) (hp : p.toDisk = false) (ops : List (Op N V R))
    (hs : AllSupported zero p.names ops (fresh zero t0 (fun _ => 0))) :
    ∃ q, run zero (.reset 0 t0 :: ops) p = some q ∧
      let t := (fresh zero t0 (fun _ => 0)).run zero ops
      q.cycle = t.now ∧ q.time = t.clock t.now ∧ (∀ n ∈ p.names, q.live n = t.live n) ∧
      (∀ k < t.top, timestep q k = some (t.dts k)) ∧
      ∀ n ∈ p.names, ∀ k ≤ t.top, load q n k = some (t.states k n, q) := by
  have hnames : (reset zero 0 t0 p).names = p.names := by
    unfold reset; dsimp only; rw [if_neg (by rw [hp]; decide)]; rfl
  obtain ⟨q, hq, hqn, hqi⟩ := inv_run zero ops (fresh zero t0 (fun _ => 0)) (reset zero 0 t0 p) (inv_reset zero t0 p hp _)
    (by rw [hnames]; exact hs)
  rw [hnames] at hqn
  refine ⟨q, hq, hqi.cycle, hqi.time, ?_, fun k hk => timestep_memory _ q hqi k hk, ?_⟩
  · intro n hn; exact hqi.live n (by rw [hqn]; exact hn)
  · intro n hn k hk; exact query_memory _ q hqi n (by rw [hqn]; exact hn) k hk

/-! ## Where the code departs from the claim -/

/-- Disk checkpoints: unless the answer is cached, the question "what was `n` at cycle `k`" is answered with the *current* value of `n`, and
every live field is replaced by the stored one - the two are exchanged. -/
theorem C27_disk_query_wrong (p : Phys N V R) (hp : p.toDisk = true) (k : ℤ) (file : N → V) (hf : p.disk k = some file)
    (hc : ∀ c m, p.cached = some (c, m) → c ≠ k) (n : N) (hn : n ∈ p.names) :
    ∃ q, load p n k = some (p.live n, q) ∧ q.live n = file n ∧ (p.live n ≠ file n → q.live n ≠ p.live n) := by
  have hget : getStates p k = some (p.live, { p with live := fun n => if n ∈ p.names then file n else p.live n }) := by
    rw [getStates, if_pos hp, hf]; rfl
  have hload : load p n k = some (p.live n, { p with live := fun n => if n ∈ p.names then file n else p.live n,
                                                     cached := some (k, p.live) }) := by
    rw [load, if_pos hp]
    split
    · rename_i c m hcm
      rw [if_neg (hc c m hcm), hget]; rfl
    · rw [hget]; rfl
  refine ⟨_, hload, if_pos hn, fun hne => ?_⟩
  show (if n ∈ p.names then file n else p.live n) ≠ p.live n
  rw [if_pos hn]
  exact fun he => hne he.symm

/-- The only correct disk answers: the field already has the stored value. -/
theorem C27_disk_query_iff (p : Phys N V R) (hp : p.toDisk = true) (k : ℤ) (file : N → V) (hf : p.disk k = some file)
    (hc : p.cached = none) (n : N) (hn : n ∈ p.names) :
    (∃ q, load p n k = some (file n, q)) ↔ p.live n = file n := by
  obtain ⟨q, hq, -, -⟩ := C27_disk_query_wrong p hp k file hf (fun c m h => by rw [hc] at h; cases h) n hn
  constructor
  · rintro ⟨q', hq'⟩
    rw [hq] at hq'
    exact (Prod.mk.inj (Option.some.inj hq')).1
  · intro h; exact ⟨q, by rw [← h]; exact hq⟩

/-- Disk checkpoints: a reverse step leaves every field as it was, whatever the file says. -/
theorem C27_disk_reverse_wrong (p q : Phys N V R) (hp : p.toDisk = true) (h : reverse p = some q) (n : N) (hn : n ∈ p.names) :
    q.live n = p.live n := by
  unfold reverse at h
  split_ifs at h with hc
  dsimp only at h
  simp only [Option.bind_eq_bind, Option.bind_eq_some_iff] at h
  obtain ⟨_, -, dt, -, ⟨m, p'⟩, hg, hq⟩ := h
  rw [getStates, if_pos hp] at hg
  simp only [Option.bind_eq_bind, Option.bind_eq_some_iff] at hg
  obtain ⟨file, -, hg⟩ := hg
  cases hg
  cases hq
  exact if_pos hn

/-- The cached answer survives a reset and a new run: after any further steps, resets and setup the question about the cached cycle is
answered from the old run. -/
theorem C27_disk_cache_wrong (zero : N → V) (p q : Phys N V R) (hp : p.toDisk = true) (k : ℤ) (old : N → V)
    (hc : p.cached = some (k, old)) (ops : List (Op N V R)) (hops : ∀ op ∈ ops, ∀ n c, op = Op.query n c → c = k)
    (hq : run zero ops p = some q) (n : N) : load q n k = some (old n, q) := by
  suffices H : q.toDisk = true ∧ q.cached = some (k, old) by
    rw [load, if_pos H.1, H.2]
    show (if k = k then _ else _) = _
    rw [if_pos rfl]
  clear n
  induction ops generalizing p with
  | nil => cases hq; exact ⟨hp, hc⟩
  | cons op ops ih =>
    rw [run, Option.bind_eq_some_iff] at hq
    obtain ⟨p', h1, h2⟩ := hq
    have H : p'.toDisk = true ∧ p'.cached = some (k, old) := by
      cases op with
      | reset c t =>
        cases h1; unfold reset; dsimp only; split_ifs <;> exact ⟨hp, hc⟩
      | setState n v =>
        change setState n v p = _ at h1
        unfold setState at h1; dsimp only at h1
        rw [if_pos hp] at h1
        cases h1; exact ⟨hp, hc⟩
      | completeSetup =>
        cases h1; unfold completeSetup; split_ifs <;> exact ⟨hp, hc⟩
      | advance dt s =>
        cases h1; unfold advance; dsimp only; split_ifs <;> exact ⟨hp, hc⟩
      | reverse =>
        change reverse p = _ at h1
        unfold reverse at h1
        split_ifs at h1
        dsimp only at h1
        simp only [Option.bind_eq_bind, Option.bind_eq_some_iff] at h1
        obtain ⟨_, -, dt, -, ⟨m, p''⟩, hg, hq⟩ := h1
        rw [getStates, if_pos hp] at hg
        simp only [Option.bind_eq_bind, Option.bind_eq_some_iff] at hg
        obtain ⟨file, -, hg⟩ := hg
        cases hg
        cases hq
        exact ⟨hp, hc⟩
      | resetAdjoint => cases h1; exact ⟨hp, hc⟩
      | query n c =>
        have hck : c = k := hops _ List.mem_cons_self n c rfl
        subst hck
        change (load p n c).map Prod.snd = _ at h1
        rw [load, if_pos hp, hc] at h1
        change Option.map Prod.snd (if c = c then _ else _) = _ at h1
        rw [if_pos rfl] at h1
        cases h1; exact ⟨hp, hc⟩
    exact ih p' H.1 H.2 (fun op hop => hops op (List.mem_cons_of_mem _ hop)) h2

/-- Memory checkpoints: a forward step taken below the latest cycle (after reverse steps) is recorded neither among the states nor among
the step sizes: the new cycle still answers with the record `old` of the earlier run. -/
theorem C27_readvance_wrong (p : Phys N V R) (hp : p.toDisk = false) (hlt : p.cycle < p.maxCycle) (n : N) (old : V)
    (hold : at? (p.mem n) (p.cycle + 1) = some old) (dt : R) (s : N → V) :
    load (advance dt s p) n (p.cycle + 1) = some (old, advance dt s p) ∧ (advance dt s p).cycle = p.cycle + 1 ∧
      (advance dt s p).live n = s n ∧ (advance dt s p).steps = p.steps := by
  have hadv : advance dt s p =
      { p with live := s, time := p.time + dt, cycle := p.cycle + 1,
               mem := fun n => if n ∈ p.names then p.mem n ++ [s n] else p.mem n } := by
    have hmode : ¬ p.toDisk = true := by rw [hp]; decide
    unfold advance; dsimp only
    rw [if_neg hmode]
    unfold pushMemory; dsimp only
    rw [if_neg (by omega)]
  rw [hadv]
  refine ⟨?_, rfl, rfl, rfl⟩
  rw [load, if_neg (by show ¬ p.toDisk = true; rw [hp]; decide)]
  show ((at? (if n ∈ p.names then p.mem n ++ [s n] else p.mem n) (p.cycle + 1)).bind _) = _
  have : at? (if n ∈ p.names then p.mem n ++ [s n] else p.mem n) (p.cycle + 1) = some old := by
    split_ifs
    · unfold at? at hold ⊢
      split_ifs at hold ⊢
      rw [List.getElem?_append_left (List.getElem?_eq_some_iff.1 hold).1]
      exact hold
    · exact hold
  rw [this]
  rfl

theorem run_snoc (zero : N → V) (l : List (Op N V R)) (a b : Phys N V R) (op : Op N V R) (h : run zero l a = some b) :
    run zero (l ++ [op]) a = step zero op b := by
  induction l generalizing a with
  | nil =>
    cases h
    show (step zero op b).bind (run zero []) = _
    cases step zero op b <;> rfl
  | cons o l ihl =>
    rw [run, Option.bind_eq_some_iff] at h
    obtain ⟨a', ha, hb⟩ := h
    rw [List.cons_append, run, ha]
    exact ihl a' hb

/-- The state of the module after a reset to cycle `c` and forward steps `sts`. -/
theorem offset_run (zero : N → V) (c : ℤ) (t0 : R) (p : Phys N V R) (hp : p.toDisk = false) (sts : List (R × (N → V))) :
    ∃ q, run zero (.reset c t0 :: sts.map (fun s => Op.advance s.1 s.2)) p = some q ∧ q.toDisk = false ∧ q.names = p.names ∧
      q.minCycle = c ∧ q.cycle = c + sts.length ∧ q.maxCycle = c + sts.length ∧ q.steps = sts.map Prod.fst ∧
      ∀ n ∈ p.names, q.mem n = zero n :: sts.map (fun s => s.2 n) := by
  induction sts using List.reverseRecOn with
  | nil =>
    refine ⟨reset zero c t0 p, rfl, ?_⟩
    unfold reset; dsimp only
    rw [if_neg (by rw [hp]; decide)]
    refine ⟨hp, rfl, rfl, by simp [restartMemory], by simp [restartMemory], rfl, fun n hn => ?_⟩
    show (if n ∈ p.names then [zero n] else []) = _
    rw [if_pos hn]; rfl
  | append_singleton sts s ih =>
    obtain ⟨q, h1, h2, h3, h4, h5, h6, h7, h8⟩ := ih
    refine ⟨advance s.1 s.2 q, ?_, ?_⟩
    · rw [List.map_append, ← List.cons_append]
      exact run_snoc zero _ _ _ _ h1
    · have hadv : advance s.1 s.2 q =
          { q with live := s.2, time := q.time + s.1, cycle := q.cycle + 1,
                   mem := fun n => if n ∈ q.names then q.mem n ++ [s.2 n] else q.mem n,
                   steps := q.steps ++ [s.1], maxCycle := q.cycle + 1, maxTime := q.time + s.1 } := by
        have hmode : ¬ q.toDisk = true := by rw [h2]; decide
        unfold advance; dsimp only
        rw [if_neg hmode]
        unfold pushMemory; dsimp only
        rw [if_pos (by omega)]
      rw [hadv]
      refine ⟨h2, h3, h4, ?_, ?_, ?_, fun n hn => ?_⟩
      · show q.cycle + 1 = _
        rw [h5, List.length_append]; push_cast; simp only [List.length_cons, List.length_nil]; omega
      · show q.cycle + 1 = _
        rw [h5, List.length_append]; push_cast; simp only [List.length_cons, List.length_nil]; omega
      · show q.steps ++ [s.1] = _
        rw [h7, List.map_append]; rfl
      · show (if n ∈ q.names then q.mem n ++ [s.2 n] else q.mem n) = _
        rw [h3, if_pos hn, h8 n hn, List.map_append]; rfl

/-- A module started at cycle `c ≥ 0` with memory checkpoints answers a question about cycle `k` with the state of cycle `c + k` (and fails
for the last `c` cycles): correct only for `c = 0`. -/
theorem C27_offset_wrong (zero : N → V) (c : ℕ) (t0 : R) (p : Phys N V R) (hp : p.toDisk = false) (sts : List (R × (N → V)))
    (n : N) (hn : n ∈ p.names) :
    ∃ q, run zero (.reset c t0 :: sts.map (fun s => Op.advance s.1 s.2)) p = some q ∧
      (∀ j < sts.length, ∀ s, sts[j]? = some s →
        -- the state the module had at cycle `c + (j+1)` is what it reports for cycle `j + 1`
        load q n ((j : ℤ) + 1) = some (s.2 n, q)) ∧
      (∀ k : ℤ, sts.length < k → load q n k = none) ∧ q.cycle = c + sts.length := by
  obtain ⟨q, h1, h2, h3, h4, h5, h6, h7, h8⟩ := offset_run zero (c : ℤ) t0 p hp sts
  refine ⟨q, h1, ?_, ?_, h5⟩
  · intro j hj s hs
    rw [load, if_neg (by rw [h2]; decide), show (j : ℤ) + 1 = ((j + 1 : ℕ) : ℤ) by push_cast; rfl, at?_cast, h8 n hn,
      List.getElem?_cons_succ, List.getElem?_map, hs]
    rfl
  · intro k hk
    rw [load, if_neg (by rw [h2]; decide), h8 n hn, at?, if_neg (by omega),
      List.getElem?_eq_none (by rw [List.length_cons, List.length_map]; omega)]
    rfl

/-- ... and reversing the last of `m ≥ 1` steps is an error for every start cycle `c ≥ 1`: `loadCheckpointedState` would read past the
end of its vector. -/
theorem C27_offset_reverse_wrong (zero : N → V) (c : ℕ) (hc : 1 ≤ c) (t0 : R) (p : Phys N V R) (hp : p.toDisk = false)
    (hne : p.names ≠ []) (sts : List (R × (N → V))) :
    run zero (.reset c t0 :: (sts.map (fun s => Op.advance s.1 s.2) ++ [.reverse])) p = none := by
  obtain ⟨q, h1, h2, h3, h4, h5, h6, h7, h8⟩ := offset_run zero (c : ℤ) t0 p hp sts
  rw [← List.cons_append, run_snoc zero _ _ _ _ h1]
  show reverse q = none
  unfold reverse
  by_cases hm : q.cycle ≤ q.minCycle
  · rw [if_pos hm]
  · rw [if_neg hm]
    dsimp only
    have hg : getStates { q with cycle := q.cycle - 1 } (q.cycle - 1 + 1) = none := by
      rw [getStates, if_neg (by show ¬ q.toDisk = true; rw [h2]; decide), fromMemory, if_neg]
      · rfl
      · obtain ⟨n, hn⟩ := List.exists_mem_of_ne_nil _ hne
        intro hall
        have := List.all_eq_true.1 hall n (by show n ∈ q.names; rw [h3]; exact hn)
        rw [show ({ q with cycle := q.cycle - 1 } : Phys N V R).mem n = _ from h8 n hn, at?, if_neg (by omega),
          List.getElem?_eq_none (by rw [List.length_cons, List.length_map]; omega)] at this
        cases this
    rw [hg]
    dsimp only [Option.bind_eq_bind, Option.bind_none]
    generalize (if q.solid = true then _ else _ : Option R) = o1
    generalize timestep { q with cycle := q.cycle - 1 } (q.cycle - 1) = o2
    cases o1 <;> cases o2 <;> rfl

/-! ## Examples -/

/-- A module with two fields. -/
def demo (disk : Bool) : Phys Bool Int Int :=
  { toDisk := disk, solid := true, names := [true, false], live := fun _ => 0, cycle := 0, maxCycle := 0, minCycle := 0, time := 0,
    maxTime := 0, steps := [], mem := fun _ => [], disk := fun _ => none, cached := none }

/-- A run with setup, two steps, a full reverse pass, a return to the end and a further step. -/
def demoOps : List (Op Bool Int Int) :=
  [.setState true 5, .completeSetup, .advance 2 (fun _ => 7), .advance 3 (fun b => if b then 8 else 9), .query true 1, .reverse, .reverse,
   .query false 2, .resetAdjoint, .advance 4 (fun _ => 10)]

example : AllSupported (fun _ => 0) (demo false).names demoOps (fresh (fun _ => (0 : Int)) (1 : Int) (fun _ => 0)) := by
  simp [AllSupported, Supported, demoOps, demo, fresh, Timeline.step]

example : ((run (fun _ => 0) (.reset 0 1 :: demoOps) (demo false)).bind (fun q => load q false 2)).map Prod.fst = some 9 := by decide

/-- On disk: after two steps, asking for cycle 1 returns the value of cycle 2, and the live field is then that of cycle 1. -/
example : ((run (fun _ => 0) [.reset 0 1, .completeSetup, .advance 2 (fun _ => 7), .advance 3 (fun _ => 8)] (demo true)).bind
    (fun q => load q true 1)).map (fun r => (r.1, r.2.live true)) = some (8, 7) := by decide

/-- Forward, reverse, forward with another result: cycle 1 still reports the first result. -/
example : ((run (fun _ => 0) [.reset 0 1, .completeSetup, .advance 2 (fun _ => 7), .reverse, .advance 3 (fun _ => 8)] (demo false)).bind
    (fun q => (load q true 1).bind (fun r => (timestep q 0).map (fun d => (r.1, d))))) = some (7, 2) := by decide

/-- Started at cycle 2: cycle 1 "is" what was computed at cycle 3, and cycle 3 is out of range. -/
example : ((run (fun _ => 0) [.reset 2 1, .advance 2 (fun _ => 7)] (demo false)).bind
    (fun q => some ((load q true 1).map Prod.fst, (load q true 3).map Prod.fst, q.cycle))) = some (some 7, none, 3) := by decide

end Serac.C27
